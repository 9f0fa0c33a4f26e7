{
 "claims": [
  {
   "property": "C01",
   "status": "proved",
   "theorems": [
    "Dreimac.C01_simplex_index_bijective",
    "Dreimac.C01_reads_in_bounds"
   ],
   "note": "C01_simplex_index_bijective: C01. For a table built for `N \u2265 n` vertices and dimension `D \u2265 d`, the index function is a bijection from the `d`-simplices on `n` vertices onto `{0, \u2026, C(n, d+1) - 1}`. | C01_reads_in_bounds: C01 (memory). All table reads performed for a simplex on the table's vertices are inside the table."
  },
  {
   "property": "C02",
   "status": "proved",
   "theorems": [
    "Dreimac.C02_edge_and_triangle_index",
    "Dreimac.C02_specialised_agree",
    "Dreimac.C02_colex_order",
    "Dreimac.C02_index_stable"
   ],
   "note": "C02_edge_and_triangle_index: C02. `edgeIdx` and `triIdx` are the indices the code computes. | C02_specialised_agree: C02. The specialised indexers agree with the general one, on every table and all vertices. | C02_colex_order: C02. Indices are ordered colexicographically. | C02_index_stable: C02. The index of a simplex does not depend on the size of the table."
  },
  {
   "property": "C03",
   "status": "proved",
   "theorems": [
    "Dreimac.C03_number_of_simplices",
    "Dreimac.C03_number_of_edges"
   ],
   "note": "C03_number_of_simplices: C03. The number of simplices read from the table is the number of `d`-simplices on `n` vertices (there is a one-to-one correspondence with a set of that many elements). | C03_number_of_edges: C03. For edges this is the closed form `(n * (n - 1)) // 2` that the matrix builders use (utils.py 318, 363, 452; toroidalcoords.py 233)."
  },
  {
   "property": "C04",
   "status": "proved",
   "theorems": [
    "Dreimac.C04_parity_is_sign",
    "Dreimac.C04_parity_total"
   ],
   "note": "C04_parity_is_sign: C04. On the one-line notation of any permutation of `0..n-1`, `parity` returns (in particular terminates without an index error) the sign of the permutation: `+1` for even ones, `-1` for odd ones. | C04_parity_total: C04. The same for lists: every list that is a rearrangement of `0..n-1` is accepted, and the result is `\u00b11`."
  },
  {
   "property": "C05",
   "status": "proved",
   "theorems": [
    "Dreimac.C05_order_simplex"
   ],
   "note": "C05_order_simplex: C05. For a simplex with pairwise different vertices `f 0, \u2026, f d`, `order_simplex` returns the vertices in increasing order, and any reordering of the vertices by a permutation `\u03c1` gives the same sorted simplex with the sign multiplied by the sign of `\u03c1`; an already sorted simplex gets sign `+1`."
  },
  {
   "property": "C06",
   "status": "proved",
   "theorems": [
    "Dreimac.C06_sparse_to_dense",
    "Dreimac.C06_every_slot_is_a_simplex",
    "Dreimac.C06_row_order_irrelevant",
    "Dreimac.C06_orientation_irrelevant"
   ],
   "note": "C06_sparse_to_dense: C06. Sparse to dense conversion. For every sparse cochain listing pairwise different `d`-simplices on `n` vertices (each in any vertex order): the conversion succeeds (every store is in bounds), the vector has one slot per simplex, a simplex listed in an order differing from the increasing one by the permutation `\u03c4` holds the listed value times the sign of `\u03c4`, and every simplex not listed holds `0`. | C06_every_slot_is_a_simplex: Every slot is the slot of a simplex, so C06 determines the whole vector. | C06_row_order_irrelevant: C06. The result does not depend on the order of the rows. | C06_orientation_irrelevant: C06. The result does not depend on the orientation in which each simplex is listed."
  },
  {
   "property": "C07",
   "status": "proved",
   "theorems": [
    "Dreimac.C07_lift_balanced",
    "Dreimac.C07_lift_unique"
   ],
   "note": "C07_lift_balanced: C07. The lift keeps the simplices and the order of the rows, changes each value by a multiple of `p`, and puts it in the balanced range: with `v'` the new value, `-p \u2264 2 v'` and `2 v' \u2264 p - 1`, i.e. `|v'| \u2264 (p-1)/2` for odd `p`. | C07_lift_unique: C07. For odd `p` the balanced representative is unique, so the lift is the only possible one."
  },
  {
   "property": "C08",
   "status": "proved",
   "theorems": [
    "Dreimac.C08_repeatable"
   ],
   "note": "C08_repeatable: C08. After any history of calls, with any arguments, successful or not, a further call returns exactly what it would have returned as the first call, and every stored cocycle is, up to multiples of the prime, the one the constructor stored."
  },
  {
   "property": "C09",
   "status": "partial",
   "theorems": [
    "Dreimac.C09_values_bounded_partial",
    "Dreimac.C09_negative_after_call"
   ],
   "note": "C09_values_bounded_partial: C09, what holds: after any history every stored value lies strictly between `-prime` and `prime`, and is congruent modulo the prime to the value in the finite field (C08). Missing: non-negativity, which is false by the theorem above. | C09_negative_after_call: C09 is false. Whenever the selected classes are valid and their supports intersect, a selected class with a value above `(prime-1)/2` is reported with a negative value after the call, whether or not the call succeeds."
  },
  {
   "property": "C10",
   "status": "proved",
   "theorems": [
    "Dreimac.C10_reindex"
   ],
   "note": "C10_reindex: C10. For every list of pairwise different landmarks (indices of data points below `N`) and all cocycles whose vertices are data-point indices, reindexing succeeds, keeps the values and the shape, and replaces a vertex that is the `i`-th landmark by `i` and every other vertex by `-1`."
  },
  {
   "property": "C11",
   "status": "proved",
   "theorems": [
    "Dreimac.C11_delta0"
   ],
   "note": "C11_delta0: C11. `make_delta0` returns the matrix of the coboundary from functions to edge cochains."
  },
  {
   "property": "C12",
   "status": "proved",
   "theorems": [
    "Dreimac.C12_delta1",
    "Dreimac.C12_rows_are_simplices"
   ],
   "note": "C12_delta1: C12. `make_delta1` returns the matrix of the coboundary from edge cochains to triangle cochains. | C12_rows_are_simplices: Every row of `make_delta0` and `make_delta1` is the row of an edge, resp. triangle, so C11 and C12 describe all rows."
  },
  {
   "property": "C13",
   "status": "proved",
   "theorems": [
    "Dreimac.C13_delta1_compact",
    "Dreimac.C13_delta2_compact",
    "Dreimac.C13_kernel",
    "Dreimac.C13_kernel2"
   ],
   "note": "C13_delta1_compact: C13. `make_delta1_compact` has exactly one row per Rips triangle, holding the coboundary on that triangle. | C13_delta2_compact: C13. `make_delta2_compact` has exactly one row per Rips tetrahedron, holding the alternating sum over its faces. (`hsz'`: at most `2^31` tetrahedra exist at the threshold.) | C13_kernel: C13. A cochain is annihilated by the compact matrix iff its coboundary vanishes on every Rips triangle. | C13_kernel2: C13. The same for `make_delta2_compact` and tetrahedra."
  },
  {
   "property": "C14",
   "status": "proved",
   "theorems": [
    "Dreimac.C14_delta1_delta0",
    "Dreimac.C14_delta2_delta1"
   ],
   "note": "C14_delta1_delta0: C14. `delta1 (delta0 f) = 0` in every row, for every function `f` on the landmarks. | C14_delta2_delta1: C14. `delta2 (delta1 c) = 0` in every row, for every edge cochain `c`."
  },
  {
   "property": "C15",
   "status": "proved",
   "theorems": [
    "Dreimac.C15_writes_in_bounds",
    "Dreimac.C15_no_out_of_bounds"
   ],
   "note": "C15_writes_in_bounds: C15. No builder writes outside its buffers, whatever the distances, the threshold and the (unbounded) number of landmarks, and all row and column indices are inside the declared shape. | C15_no_out_of_bounds: C15. In particular no builder ends in an out-of-bounds write."
  },
  {
   "property": "C16",
   "status": "partial",
   "theorems": [
    "Dreimac.C16_int32_exact_partial",
    "Dreimac.C16_wraps_beyond",
    "Dreimac.C16_silent_corruption"
   ],
   "note": "C16_int32_exact_partial: C16 (partial). Full claim: stored 32-bit indices equal the intended ones for every number of landmarks. Proved: they do for all edge indices up to 65536 landmarks and all triangle indices up to 2345 landmarks. Missing: it is false beyond (see the two theorems below). | C16_wraps_beyond: C16 (negation). For every number of landmarks above the bound, there is a simplex whose index wraps; if the complex is complete the builders raise `ValueError` (negative index) instead of returning the matrix. | C16_silent_corruption: C16 (negation, silent corruption). For every number of landmarks `n \u2265 92683` there are distances for which `make_delta0` returns, without any error, a matrix with a non-zero row at the slot of the edge `{0,1}`, although `{0,1}` is not an edge of the complex."
  },
  {
   "property": "C17",
   "status": "proved",
   "theorems": [
    "Dreimac.C17_one_cocycle_check",
    "Dreimac.C17_first_failure"
   ],
   "note": "C17_one_cocycle_check: C17. `_is_one_cocycle` answers `True` iff the cocycle condition holds on every Rips triangle. | C17_first_failure: C17. The second value is the shortest side occurring in a violating triangle (`inf` if there is none)."
  },
  {
   "property": "C18",
   "status": "proved",
   "theorems": [
    "Dreimac.C18_two_cocycle_check"
   ],
   "note": "C18_two_cocycle_check: C18. `_is_two_cocycle` answers `True` iff the alternating sum over the faces of every Rips tetrahedron vanishes."
  },
  {
   "property": "C19",
   "status": "proved",
   "theorems": [
    "Dreimac.C19_repaired_one_cochain",
    "Dreimac.C19_repaired_two_cochain",
    "Dreimac.C19_rint_half_even"
   ],
   "note": "C19_repaired_one_cochain: C19 (edges). The repaired cochain is an integer cocycle congruent to the lifted one, as soon as the solver's answer is integral and feasible up to tolerances with `3 \u03b5 + \u03c4 < 1`. | C19_repaired_two_cochain: C19 (triangles). The same for 2-cochains, with `4 \u03b5 + \u03c4 < 1`. | C19_rint_half_even: C19, C40 (rounding). `np.rint` and `round` as modelled: a nearest integer, the even one on ties."
  },
  {
   "property": "C20",
   "status": "proved",
   "theorems": [
    "Dreimac.C20_error_iff_no_lift_call",
    "Dreimac.C20_feasible_iff_lift",
    "Dreimac.C20_error_iff_no_lift"
   ],
   "note": "C20_error_iff_no_lift_call: C20 (whole call). For a single valid class that is a cocycle modulo the prime, with a correct and complete solver, the call fails with the message about integral lifts iff the class has no integral lift, and otherwise returns one coordinate. | C20_feasible_iff_lift: C20. For a cocycle modulo `p`, the integer program `\u03b4 z = (\u03b4 c) // p` is feasible iff there is an integer cocycle congruent to `c` modulo `p`. | C20_error_iff_no_lift: C20. With a correct solver, `get_coordinates` on one class raises the \"no integral lift\" error iff the class has no integral lift."
  },
  {
   "property": "C21",
   "status": "partial",
   "theorems": [
    "Dreimac.C21_second_repair_crashes_call",
    "Dreimac.C21_repairs_one_class_partial",
    "Dreimac.C21_second_repair_crashes"
   ],
   "note": "C21_second_repair_crashes_call: C21 is false (whole call). Two of the selected classes are not integer cocycles after lifting (all classes selected before the second one but the first are): even if the first one has an integral lift, and whether or not the second one has one, the call raises a `ValueError`, with any complete solver. | C21_repairs_one_class_partial: C21 (partial). If at most one of the selected classes needs fixing (here: `c`, after `pre` and before `post`, all of which already are integer cocycles) then with a correct solver the outcome is right: either `c` has an integral lift and exactly one is substituted, the other classes being untouched, or it has none and the error is raised. Missing from the full statement: two or more classes needing repair, where the program fails (`C21_second_repair_crashes`). | C21_second_repair_crashes: C21 is false. Whatever the data and the solver: if two of the selected classes fail the check and the first one is repaired successfully, the call raises a `ValueError` (truth value of a sparse array), even if both have integral lifts."
  },
  {
   "property": "C22",
   "status": "partial",
   "theorems": [
    "Dreimac.C22_repair_raises_name_error",
    "Dreimac.C22_repair_if_imported_partial"
   ],
   "note": "C22_repair_raises_name_error: C22 is false. Whenever the lifted 2-cochain is not an integer cocycle, the call as shipped raises `NameError` (the module never imports `scipy`), whatever the data and the solver, so even if an integral lift exists. | C22_repair_if_imported_partial: C22 (partial). A lifted 2-cochain that already is an integer cocycle is accepted unchanged; and if the name `scipy` were bound, a correct solver would return an integral lift if there is one and raise the error naming the selected class otherwise. Missing: the shipped code raises `NameError` instead (`C22_repair_raises_name_error`)."
  },
  {
   "property": "C23",
   "status": "partial",
   "theorems": [
    "Dreimac.C23_error_position_call_partial",
    "Dreimac.C23_wrong_index_call",
    "Dreimac.C23_error_position_partial",
    "Dreimac.C23_wrong_index"
   ],
   "note": "C23_error_position_call_partial: C23 (partial, whole call). If all selected classes but one are integer cocycles after lifting, and that one is a cocycle modulo the prime without an integral lift, the message names its *position* among the selected classes. Missing: it is not the class index the user passed (`C23_wrong_index_call`). | C23_wrong_index_call: C23 is false (whole call). If the user selects the single class `idx`, a valid class that is a cocycle modulo the prime and has no integral lift, `get_coordinates` fails with a message that names class `0`, so for every `idx \u2260 0` it names the wrong class. | C23_error_position_partial: C23 (partial). The index in the error message is the *position in the list of selected classes* of the first class without an integral lift. Missing: it is not the class index the user passed (`C23_wrong_index`). | C23_wrong_index: C23 is false. If the user selects the single class `idx` and it has no integral lift, the message names the class at index `0`, whatever `idx` is; nothing of `idx` survives into the repair step."
  },
  {
   "property": "C24",
   "status": "proved",
   "theorems": [
    "Dreimac.C24_cover_radius",
    "Dreimac.C24_monotone"
   ],
   "note": "C24_cover_radius: C24. For a class with finite birth and death: the error is raised exactly if the admissible interval `[start, death]` is empty, where `start` is `2 * birth` (standard range) or `birth`; otherwise the threshold is the point of the interval at fraction `perc` and the radius is half of it. | C24_monotone: C24. The threshold moves monotonically from `start` (at `perc = 0`) to `death` (at `perc = 1`)."
  },
  {
   "property": "C25",
   "status": "partial",
   "theorems": [
    "Dreimac.C25_essential_class_no_finite_radius",
    "Dreimac.C25_finite_death_partial",
    "Dreimac.C25_essential_class_all_nan",
    "Dreimac.C25_zero_percent_warns_about_every_point"
   ],
   "note": "C25_essential_class_no_finite_radius: C25 is false. For a class that never dies, every `perc` in `(0, 1]` gives an infinite radius and `perc = 0` gives `nan`; no `perc` in `[0, 1]` gives a finite one, and no error is raised. | C25_finite_death_partial: C25 (partial). The radius is finite for every class with a finite death that is long enough. Missing: classes with death `inf`. | C25_essential_class_all_nan: C25 is false (consequence). With the infinite radius of an essential class, every weight of every data point is `nan` for all three built-in bump functions, and no warning is issued. | C25_zero_percent_warns_about_every_point: C25 is false (consequence). With the radius `nan` that an essential class has for `perc = 0`, no data point lies in a ball: every weight is `nan`, and if there are data points the warning counts all of them."
  },
  {
   "property": "C26",
   "status": "proved",
   "theorems": [
    "Dreimac.C26_persistence_order"
   ],
   "note": "C26_persistence_order: C26. Let ripser return pairwise different landmarks and cocycles whose vertices are data points. After construction, in every dimension `1 \u2264 i \u2264 maxdim`: the diagram is a rearrangement (by a permutation `\u03c3` of the positions) of ripser's, sorted so that no class lives longer than an earlier one, and the cocycle at each position is the cocycle ripser computed for the same class, with the vertices relabelled by landmark numbers and the values unchanged."
  },
  {
   "property": "C27",
   "status": "proved",
   "theorems": [
    "Dreimac.C27_disjoint_supports",
    "Dreimac.C27_threshold_in_all_supports"
   ],
   "note": "C27_disjoint_supports: C27. If the selection is valid, the call reports disjoint supports exactly if some selected class is born no earlier than some selected class dies. | C27_threshold_in_all_supports: C27. If the call succeeds, with finite non-negative births, finite deaths and `0 \u2264 perc \u2264 1`, the Rips threshold it used (and stored) is at least every selected birth and at most every selected death."
  },
  {
   "property": "C28",
   "status": "proved",
   "theorems": [
    "Dreimac.C28_partition_of_unity",
    "Dreimac.C28_weight_formula"
   ],
   "note": "C28_partition_of_unity: C28. For each built-in bump function, every finite table of non-negative distances and every radius: the weights of a covered data point are finite, non-negative, sum to one, and are positive exactly on the landmarks closer than the radius. | C28_weight_formula: C28 (formula). The weight of landmark `l` at a covered data point is its bump value divided by the sum of the bump values of the landmarks whose ball contains the point: with `d` the distance, the value is `r - d`, `(r - d)\u00b2` or `exp(r\u00b2 / (d\u00b2 - r\u00b2))`."
  },
  {
   "property": "C29",
   "status": "proved",
   "theorems": [
    "Dreimac.C29_coordinates",
    "Dreimac.C29_uncovered_points"
   ],
   "note": "C29_coordinates: C29 (coordinates). A returned coordinate is NaN at a data point exactly if no landmark is within the cover radius of that point. | C29_uncovered_points: C29. A warning is issued iff some data point is uncovered, it carries the exact number of such points, and the weights are `nan` at exactly those points."
  },
  {
   "property": "C30",
   "status": "proved",
   "theorems": [
    "Dreimac.C30_ball_index"
   ],
   "note": "C30_ball_index: C30. The ball index of a covered point is the smallest landmark whose ball contains it, and 0 for an uncovered point; all landmarks below the ball index have weight 0 at a covered point."
  },
  {
   "property": "C31",
   "status": "partial",
   "theorems": [
    "Dreimac.C31_integer_matrix_call",
    "Dreimac.C31_integer_matrix_fails",
    "Dreimac.C31_integer_matrix_deep_partial"
   ],
   "note": "C31_integer_matrix_call: C31 is false (a whole call). For a distance matrix of integer dtype: the constructor succeeds, but with the default (linear) bump function every call for a class with finite lifetime fails with `ValueError` if some data point is at depth less than one in every ball of the cover \u2014 in particular if it is at distance exactly `r - 1/2` from the nearest landmark, well inside its ball. | C31_integer_matrix_fails: C31 is false. With an integer distance matrix and the default (linear) bump function, a data point whose depth in every ball is less than one \u2014 covered or not \u2014 makes the call fail with `ValueError`. | C31_integer_matrix_deep_partial: C31 (partial). With an integer distance matrix and the linear bump, if every data point is at depth at least one in some ball, the weights are finite, non-negative and sum to one. For floating point matrices see C28, which has no such restriction. Missing: covered points of depth less than one (`C31_integer_matrix_fails`)."
  },
  {
   "property": "C32",
   "status": "partial",
   "theorems": [
    "Dreimac.C32_coverage_is_always_zero",
    "Dreimac.C32_coverage_partial"
   ],
   "note": "C32_coverage_is_always_zero: C32 is false. For every table in which the landmarks are data points (at distance 0 from themselves) the stored coverage is 0; so it differs from the covering radius `\u03c1` (the largest distance from a data point to its nearest landmark) whenever `\u03c1 \u2260 0`. | C32_coverage_partial: C32 (partial). The stored coverage is the covering radius iff the latter is 0. Missing: every other case (`C32_coverage_is_always_zero`)."
  },
  {
   "property": "C33",
   "status": "proved",
   "theorems": [
    "Dreimac.C33_angles"
   ],
   "note": "C33_angles: C33. Every returned coordinate of a covered point is a finite number in `[0, 2\u03c0)`, whatever the solvers return."
  },
  {
   "property": "C34",
   "status": "proved",
   "theorems": [
    "Dreimac.C34_any_ball"
   ],
   "note": "C34_any_ball: C34. For a checked call and landmark distances satisfying the triangle inequality, evaluating the coordinate formula with *any* ball containing the point gives the returned angle; the least squares solver is arbitrary."
  },
  {
   "property": "C35",
   "status": "proved",
   "theorems": [
    "Dreimac.C35_represents_classes",
    "Dreimac.C35_represents_class"
   ],
   "note": "C35_represents_classes: C35 (several classes). The coordinates returned by a checked call represent a basis of the lattice spanned by the selected classes: there are integer cocycles `c j`, congruent modulo the prime to the `j`-th selected class on every edge, and a unimodular integer matrix `U` such that the `k`-th coordinate has, on the ball of each landmark `l`, a real-valued lift `F k l`, built from the weights of the partition of unity, with `F k l - F k m` equal to the value of `\u2211 j, U k j * c j` on the edge `l m` wherever the two balls meet. | C35_represents_class: C35 (one class). `CircularCoords.get_coordinates`: an integer cocycle `c` congruent to the selected class, and real lifts of the coordinate over the balls whose differences on overlaps are exactly the values of `c`."
  },
  {
   "property": "C36",
   "status": "proved",
   "theorems": [
    "Dreimac.C36_full_edge_function",
    "Dreimac.C36_antisymmetric"
   ],
   "note": "C36_full_edge_function: C36. Each returned coordinate is the one computed, at the first ball containing the point, with the full antisymmetric edge function `c - \u03b4f` restricted to the Rips complex, without any assumption on the distances, the cochain or the solvers."
  },
  {
   "property": "C37",
   "status": "proved",
   "theorems": [
    "Dreimac.C37_continuity"
   ],
   "note": "C37_continuity: C37. Two data points in a common ball `l` have angles that differ, up to a multiple of `2\u03c0`, by at most `2\u03c0 M \u2211_m |w_m(i) - w_m(i')|`, where `M` bounds the values of the harmonic representative on Rips edges."
  },
  {
   "property": "C38",
   "status": "proved",
   "theorems": [
    "Dreimac.C38_representative"
   ],
   "note": "C38_representative: C38. Two objects that differ only in the stored cocycles, and a class `z` whose lifted cochains `v` and `v'` are integer cocycles on the Rips complex that differ by the coboundary of an integer function `g`: with an exact least squares solver the harmonic representatives agree on every Rips edge, and the two coordinates differ by a rotation whose angle `2\u03c0 k l` is constant along Rips edges (hence on each connected component)."
  },
  {
   "property": "C39",
   "status": "proved",
   "theorems": [
    "Dreimac.C39_least_energy"
   ],
   "note": "C39_least_energy: C39. With an exact least squares solver, for each selected class the harmonic representative `c j - \u03b4(f j)` used by the call has the least energy among all real cochains cohomologous to the integer cocycle `c j`."
  },
  {
   "property": "C40",
   "status": "proved",
   "theorems": [
    "Dreimac.C40_invariant",
    "Dreimac.C40_result"
   ],
   "note": "C40_invariant: C40: whatever the number `m` of iterations performed, the change of basis matrix is an integer matrix of determinant 1 or -1, and the current basis is the input basis times it. | C40_result: C40, for the value returned: any result of `_lll` is the input basis times an integer matrix of determinant 1 or -1, namely the second component."
  },
  {
   "property": "C41",
   "status": "proved",
   "theorems": [
    "Dreimac.C41_recover"
   ],
   "note": "C41_recover: C41. The coordinates returned for several classes are integer combinations, by a unimodular matrix `U` (which is the stored change of basis if there are at least two classes), of the individual circular coordinates of the selected classes; applying `linear_combination` with the inverse matrix `V` to what was returned gives back the individual coordinates exactly, at every covered data point."
  },
  {
   "property": "C42",
   "status": "proved",
   "theorems": [
    "Dreimac.C42_two_classes",
    "Dreimac.C42_short_vector"
   ],
   "note": "C42_two_classes: C42: for two linearly independent vectors (this is what a successful Cholesky decomposition delivers) `_lll` ends, and the basis returned is reduced. (`lll fuel B = some r` for all `fuel \u2265 N` says that the loop ends after at most `N` iterations with the result `r`.) | C42_short_vector: C42: consequently the first vector of the basis returned is, up to a factor `\u221a2`, a shortest non-zero vector of the lattice."
  },
  {
   "property": "C43",
   "status": "partial",
   "theorems": [
    "Dreimac.C43_two_classes_partial",
    "Dreimac.C43_three_classes_increase"
   ],
   "note": "C43_two_classes_partial: C43: for two classes the total energy (the trace of the Gram matrix) of the reduced basis is at most the one before, at any iteration. The full claim (any number of classes) is false, see `C43_three_classes_increase`. | C43_three_classes_increase: C43 fails for three classes: here the trace of the Gram matrix goes from 284 to 291."
  },
  {
   "property": "C44",
   "status": "partial",
   "theorems": [
    "Dreimac.C44_flags_partial",
    "Dreimac.C44_two_columns_partial",
    "Dreimac.C44_not_orthogonal"
   ],
   "note": "C44_flags_partial: C44: the columns of the result of `_gram_schmidt` differ from those of the input by combinations of the earlier input columns (so the flags agree), and for two columns they are orthogonal. Orthogonality for more columns fails, see `C44_not_orthogonal`. | C44_two_columns_partial: C44, two columns: orthogonal. | C44_not_orthogonal: C44 fails for three columns."
  },
  {
   "property": "C45",
   "status": "partial",
   "theorems": [
    "Dreimac.C45_spectrum_partial",
    "Dreimac.C45_wrong_matrix"
   ],
   "note": "C45_spectrum_partial: C45 (partial). Full claim: the stored Gram matrix is the Gram matrix of the harmonic representatives of the returned coordinates. Proved: the stored *original* Gram matrix is that of the individual harmonic representatives; the stored final Gram matrix is `D D\u1d40` for a matrix `D` with `D\u1d40 D` equal to the true one, so it has the same trace, the same determinant and the same characteristic polynomial. Missing: it is not the same matrix, see `C45_wrong_matrix`. | C45_wrong_matrix: C45 is false. For two classes: whenever the reduction leaves the basis unchanged and the two harmonic representatives are not orthogonal, the stored final Gram matrix differs from the Gram matrix of the returned coordinates (which is then the stored original one)."
  },
  {
   "property": "C46",
   "status": "proved",
   "theorems": [
    "Dreimac.C46_single_class"
   ],
   "note": "C46_single_class: C46. `CircularCoords.get_coordinates` with class `z` behaves exactly like `ToroidalCoords.get_coordinates` with the list `[z]`: same state afterwards, same error if there is one, and otherwise the only entry of the list; no lattice reduction takes place (the stored Gram and change-of-basis matrices are left as they were)."
  },
  {
   "property": "C47",
   "status": "proved",
   "theorems": [
    "Dreimac.C47_value",
    "Dreimac.C47_depends_on_angles",
    "Dreimac.C47_composition",
    "Dreimac.C47_one_dimensional",
    "Dreimac.C47_shape_mismatch"
   ],
   "note": "C47_value: C47. `linear_combination` accepts an `l \u00d7 k` matrix for `k` maps and returns, for each point, the angle `\u03a3_j A_ij f_j` in `[0, 2\u03c0)`. | C47_depends_on_angles: C47. With an integral matrix the result depends only on the angles modulo `2\u03c0`. | C47_composition: C47. Applying `A` and then an integral `B` equals applying `B A`. | C47_one_dimensional: C47. The one-dimensional form is the corresponding row. | C47_shape_mismatch: C47. Mismatched shapes are rejected."
  },
  {
   "property": "C48",
   "status": "proved",
   "theorems": [
    "Dreimac.C48_lens_class_map"
   ],
   "note": "C48_lens_class_map: C48. `LensCoords.get_coordinates` applies the dimensionality reduction to the array of the vectors `lensVector`, computed with the first ball containing each data point. For a class that is a cocycle modulo the prime, the vector computed with any other ball containing the data point is the same vector times a `p`-th root of unity, and has norm 1."
  },
  {
   "property": "C49",
   "status": "proved",
   "theorems": [
    "Dreimac.C49_projective_class_map"
   ],
   "note": "C49_projective_class_map: C49. `ProjectiveCoords.get_coordinates` applies the dimensionality reduction to the array of the vectors `signVector`, computed with the first ball containing each data point. For a class that is a cocycle modulo 2, the vector computed with any other ball containing the data point is plus or minus the same vector, and has norm 1."
  },
  {
   "property": "C50",
   "status": "proved",
   "theorems": [
    "Dreimac.C50_complex_projective_class_map"
   ],
   "note": "C50_complex_projective_class_map: C50. `ComplexProjectiveCoords.get_coordinates` applies the dimensionality reduction to an array whose row `i` is the vector assigned to data point `i` with the first ball containing it. If the lifted class `c` is an integer cocycle at the threshold (with the check on, a successful call implies that), then, whatever the least-squares solver returned, the vector assigned using any other ball containing the data point is the same vector times a complex number of modulus 1, and has norm 1. The weights are those of `get_covering_partition`, and with an exact least-squares solver the potential `\u03bd` minimises the energy of `c - \u03b4\u03bd`."
  },
  {
   "property": "C51",
   "status": "partial",
   "theorems": [
    "Dreimac.C51_large_data_partial",
    "Dreimac.C51_small_data_ignores_class"
   ],
   "note": "C51_large_data_partial: C51 (partial). If the class map has more than `10 ^ 6` bytes (`8 * n_landmarks * n_data > 10 ^ 6`), the dimensionality reduction is applied to the accumulated class map (with the weights of `get_covering_partition` and, if the solver is exact, the harmonic representative of the class). What is missing is the claim for smaller data, which is false (`C51_small_data_ignores_class`). | C51_small_data_ignores_class: C51 fails for small data. If the class map has at most `10 ^ 6` bytes, two successful calls on the same data with the same radius, bump function, dimension and mode return the same array and variances, whatever the classes, primes and least-squares solutions are."
  },
  {
   "property": "C52",
   "status": "proved",
   "theorems": [
    "Dreimac.C52_one_tensor",
    "Dreimac.C52_two_tensor"
   ],
   "note": "C52_one_tensor: C52 (one-cochains). The tensor of a 1-cochain is antisymmetric, agrees with the cochain on the edges of the Rips complex and vanishes on pairs that are not edges. | C52_two_tensor: C52 (two-cochains). The tensor of a 2-cochain is multiplied by the sign of a permutation of its three indices, agrees with the cochain on the triangles of the Rips complex and vanishes on triples that are not, in any order, the vertices of a triangle (in particular if two indices agree)."
  },
  {
   "property": "C53",
   "status": "proved",
   "theorems": [
    "Dreimac.C53_equivariant"
   ],
   "note": "C53_equivariant: C53. Multiplying the row of each data point by a phase multiplies its output row by the same phase and changes neither the variances nor the error raised (if any), in every mode and for every eigenvector routine."
  },
  {
   "property": "C54",
   "status": "proved",
   "theorems": [
    "Dreimac.C54_lens_choice_of_balls",
    "Dreimac.C54_projective_choice_of_balls",
    "Dreimac.C54_complex_projective_choice_of_balls"
   ],
   "note": "C54_lens_choice_of_balls: C54 (lens). Any other choice `\u03b2'` of balls containing the data points multiplies the row of each data point in the output by a `p`-th root of unity and leaves the variances unchanged. | C54_projective_choice_of_balls: C54 (projective). Any other choice `\u03b2'` of balls containing the data points changes at most the sign of the row of each data point in the output and leaves the variances unchanged. | C54_complex_projective_choice_of_balls: C54 (complex projective). Any other choice `\u03b2'` of balls containing the data points multiplies the row of each data point in the output by a complex number of modulus 1 and leaves the variances unchanged."
  },
  {
   "property": "C55",
   "status": "partial",
   "theorems": [
    "Dreimac.C55_shape_partial",
    "Dreimac.C55_too_few_columns",
    "Dreimac.C55_one_by_one_zero"
   ],
   "note": "C55_shape_partial: C55. For a target dimension below the number of landmarks and at least one, `ppca` returns one row per data point and `projDim + 1` columns in each of the three modes. (Missing from the full property: target dimensions `0` and `\u2265 n_dim`, see the two theorems below.) | C55_too_few_columns: C55 fails for target dimensions that are too large: modes \"direct\" and \"exponential\" silently return only `n_dim` columns, mode \"one-by-one\" raises `AttributeError`. | C55_one_by_one_zero: C55 fails for target dimension `0` in mode \"one-by-one\"."
  },
  {
   "property": "C56",
   "status": "proved",
   "theorems": [
    "Dreimac.C56_terminates",
    "Dreimac.C56_unit_or_nan",
    "Dreimac.C56_unit_norm"
   ],
   "note": "C56_terminates: C56 (termination). In every mode the computation ends; the number of iterations of the `while` loop is logarithmic: `fuel` iterations are enough whenever `n_dim - projDim - 1 < 2 ^ fuel`. | C56_unit_or_nan: C56 (norm). Every returned row is a vector of norm one, or consists entirely of NaN, for every eigenvector routine and every mode, provided this holds for the input. | C56_unit_norm: C56 (norm, finite case). If the eigenvector routine returns finite numbers, all data vectors have norm one and no projection ever vanishes, all returned vectors are finite of norm one."
  },
  {
   "property": "C57",
   "status": "partial",
   "theorems": [
    "Dreimac.C57_zero_variance",
    "Dreimac.C57_one_by_one_real_partial",
    "Dreimac.C57_complex_wrong"
   ],
   "note": "C57_zero_variance: C57 fails in modes \"direct\" and \"exponential\": the returned variance is the zero vector for all data. | C57_one_by_one_real_partial: C57 (mode \"one-by-one\", real data). Entry `n_dim - 2 - i` of the returned variance is the mean squared angle between the data points and the hyperplane that they are projected to in iteration `i`, if the data points of that iteration (`x`) and the direction that is dropped (`u`) are finite of norm one. (Missing from the full property: complex data and the other modes, where it is false, see `C57_zero_variance` and `C57_complex_wrong`.) | C57_complex_wrong: C57 fails for complex data even in mode \"one-by-one\": with the correct eigenvectors, dropping the direction `(1, i)/\u221a2` loses nothing (the data point is orthogonal to it), but the reported variance is maximal, `(\u03c0/2)\u00b2`: the code does not conjugate the eigenvector."
  },
  {
   "property": "C58",
   "status": "partial",
   "theorems": [
    "Dreimac.C58_uncovered_point_spoils_all",
    "Dreimac.C58_counterexample",
    "Dreimac.C58_no_reduction_partial"
   ],
   "note": "C58_uncovered_point_spoils_all: C58 fails. One uncovered data point (NaN row `n\u2080`): if the eigenvector routine answers a NaN matrix with NaN vectors, the coordinates of *all* data points are NaN in mode \"direct\"; if it raises, the coordinates of every data point are its first `projDim + 1` weights, normalised: no principal components at all. | C58_counterexample: C58 fails, concretely: without the uncovered point the covered one has the coordinates `(1, 0)`; with it, the covered point becomes NaN, whether the eigenvector routine answers a NaN matrix with NaN or with an exception. | C58_no_reduction_partial: C58 (partial). In mode \"exponential\" with a target dimension of at least `n_dim - 1` the rows are returned as they are, so that an uncovered point does not affect the others. (For smaller target dimensions the property is false.)"
  },
  {
   "property": "C59",
   "status": "proved",
   "theorems": [
    "Dreimac.C59_class_selection",
    "Dreimac.C59_missing_dimension"
   ],
   "note": "C59_class_selection: C59. On an object with `n` classes in the dimension: a non-integer index raises `AssertionError`, an integer outside `-n .. n-1` raises `IndexError`, and otherwise the class returned is the one at that position, negative indices counting from the end (the least persistent class, by C26). | C59_missing_dimension: A class index in a dimension that was not computed (e.g. dimension 2 with `maxdim = 1`) raises `IndexError`."
  },
  {
   "property": "C60",
   "status": "proved",
   "theorems": [
    "Dreimac.C60_offset"
   ],
   "note": "C60_offset: C60. `offset` returns the angle `x + 2\u03c0 t` in `[0, 2\u03c0)`; offsets add up, an integer offset is the identity on angles in `[0, 2\u03c0)`, and the offset `-t` undoes `t`."
  },
  {
   "property": "C61",
   "status": "proved",
   "theorems": [
    "Dreimac.C61_center",
    "Dreimac.C61_center_constant"
   ],
   "note": "C61_center: C61. `center` for angles that spread over `[lo, hi]`: let `k` be the first of the fullest of the fifty histogram bins (it contains at least one fiftieth of the angles). The angles are rotated by `\u03c0 - e`, where `e` is the left end of that bin, and reduced to `[0, 2\u03c0)`; so the angles of that bin land in `[\u03c0, \u03c0 + (hi - lo)/50]`. | C61_center_constant: C61. If all angles are equal they all go to `\u03c0`."
  },
  {
   "property": "C62",
   "status": "proved",
   "theorems": [
    "Dreimac.C62_sinebow"
   ],
   "note": "C62_sinebow: C62. The colour that `to_sinebow` gives to an angle `x`: three channels `sin\u00b2(x/2)`, `sin\u00b2(x/2 - \u03c0/3)`, `sin\u00b2(x/2 - 2\u03c0/3)`, which lie in `[0, 1]` and add up to `3/2`; two angles have the same colour exactly if they are equal modulo `2\u03c0`."
  },
  {
   "property": "C63",
   "status": "proved",
   "theorems": [
    "Dreimac.C63_levelset",
    "Dreimac.C63_smoothed"
   ],
   "note": "C63_levelset: C63. Invalid numbers of level sets are rejected; otherwise the value lies in `[0, 1]` and is `2\u03c0`-periodic, and without smoothing it is the parity of the index `a` of the arc `[a, a+1) \u00b7 2\u03c0/(2n)` containing the angle. | C63_smoothed: C63. With smoothing `s \u2260 0` the colour is a logistic function of the distance, measured in arcs of length `2\u03c0/(2n)`, from the angle to the nearest end `a \u00b7 2\u03c0/n` of a pair of arcs: `1/2` halfway through an arc, and the same value from both sides of every boundary."
  },
  {
   "property": "C64",
   "status": "proved",
   "theorems": [
    "Dreimac.C64_hopf"
   ],
   "note": "C64_hopf: C64: unit vectors of `\u2102\u00b2` go to unit vectors of `\u211d\u00b3`, and two of them have the same image iff they differ by a complex factor of absolute value 1."
  },
  {
   "property": "C65",
   "status": "partial",
   "theorems": [
    "Dreimac.C65_rotmat_partial",
    "Dreimac.C65_nearly_parallel",
    "Dreimac.C65_opposite_wrong"
   ],
   "note": "C65_rotmat_partial: C65 (partial): for non-zero vectors `rotmat` is a rotation matrix that takes the direction of `a` to the direction of `b` (the last coordinate vector if `b` is omitted), unless the directions are within `1e-15` of being parallel or opposite; it also does if the directions are equal. Missing: nearly opposite directions, for which it is false (`C65_opposite_wrong`), and nearly parallel ones, for which it holds up to `2e-15` (`C65_nearly_parallel`). | C65_nearly_parallel: C65: if the angle between the vectors is not obtuse, the image of the direction of `a` is within `2e-15` of the direction of `b`. | C65_opposite_wrong: C65 is false for opposite vectors: `rotmat(-b, b)` is the identity matrix, so the direction of `-b` is not taken to the direction of `b`."
  },
  {
   "property": "C66",
   "status": "proved",
   "theorems": [
    "Dreimac.C66_stereo"
   ],
   "note": "C66_stereo: C66: `get_stereo_proj_codim1` on unit vectors, for a non-zero north pole `u0` (given, or the eigenvector chosen): with the pole `w`, images lie in the closed unit disk, and in the open one exactly off the equator of `w`; points with equal images are equal or opposite; opposite points off the equator have the same image, and on the equator opposite images."
  },
  {
   "property": "C67",
   "status": "proved",
   "theorems": [
    "Dreimac.C67_hemispheres"
   ],
   "note": "C67_hemispheres: C67: `stereographic_projection_hemispheres` on unit vectors of dimension `d \u2265 2`, with the pole `w` of the centre: the open lower hemisphere goes into the open unit disk at the origin, the closed upper hemisphere into the closed unit disk centred at 2.5 on the first axis, these two disks are disjoint, and different points have different images."
  },
  {
   "property": "C68",
   "status": "partial",
   "theorems": [
    "Dreimac.C68_in_ball",
    "Dreimac.C68_lens_iff_partial",
    "Dreimac.C68_not_invariant"
   ],
   "note": "C68_in_ball: C68: unit vectors of `\u2102\u00b2` go into the closed unit ball. | C68_lens_iff_partial: C68 (partial: points with non-zero first coordinate): two unit vectors have the same image exactly when one is obtained from the other by multiplying both coordinates by a `q`-th root of unity, i.e. when they represent the same point of the lens space. Missing: points with first coordinate zero, for which it is false (`C68_not_invariant`). | C68_not_invariant: C68 is false for points with first coordinate zero: the image of `(0, w)` is `w` itself, so it changes under every non-trivial root of unity."
  },
  {
   "property": "C69",
   "status": "proved",
   "theorems": [
    "Dreimac.C69_northpole"
   ],
   "note": "C69_northpole: C69: the returned point of the plane is the input if it lies in the closed unit disk, and otherwise the input divided by its length; the returned vector is the unit vector with non-negative third coordinate above it."
  },
  {
   "property": "C70",
   "status": "proved",
   "theorems": [
    "Dreimac.C70_csm_euclidean",
    "Dreimac.C70_clipping",
    "Dreimac.C70_ssm_metric"
   ],
   "note": "C70_csm_euclidean: C70: entry `(i, j)` of `get_csm` is the square root of the sum of squared differences of the rows, i.e. their Euclidean distance. | C70_clipping: C70: the clipping of negative entries never changes the exact value. | C70_ssm_metric: C70: `get_ssm` is a pseudometric matrix: zero diagonal, symmetric, triangle inequality, zero exactly for equal rows."
  },
  {
   "property": "C71",
   "status": "proved",
   "theorems": [
    "Dreimac.C71_rp2_metric",
    "Dreimac.C71_projarc_metric",
    "Dreimac.C71_clipping"
   ],
   "note": "C71_rp2_metric: C71 for `rp2_metric`: the returned points are unit vectors and the matrix is symmetric with zero diagonal, values in `[0, \u03c0/2]` and the triangle inequality. | C71_projarc_metric: C71: on unit vectors `get_csm_projarc` is a pseudometric on projective space: values in `[0, \u03c0/2]`, symmetric, unchanged when a vector is replaced by its opposite, zero exactly for equal or opposite vectors, triangle inequality. | C71_clipping: C71: rows of any length (as after rounding): the entry is a number in `[0, \u03c0/2]`, symmetric, and it is zero as soon as the product of the rows is at least 1 in absolute value."
  },
  {
   "property": "C72",
   "status": "proved",
   "theorems": [
    "Dreimac.C72_greedy_dm",
    "Dreimac.C72_greedy_pc",
    "Dreimac.C72_greedy_geodesic",
    "Dreimac.C72_sample_unique",
    "Dreimac.C72_errors"
   ],
   "note": "C72_greedy_dm: C72 for `get_greedy_perm_dm`: for a square array with at least one row and at least one landmark the function returns a farthest point sample and the rows of its landmarks. | C72_greedy_pc: C72 for `get_greedy_perm_pc`, with any cross-similarity function. | C72_greedy_geodesic: C72 for `landmark_geodesic_distance`, with any shortest path distances: the leading entries of the returned permutation are a farthest point sample. | C72_sample_unique: C72: the specification determines the landmarks and radii, so the three functions return the same sample of the same distances. | C72_errors: C72: the calls that fail: no points, or (for point clouds and geodesic distances) no landmarks."
  },
  {
   "property": "C73",
   "status": "proved",
   "theorems": [
    "Dreimac.C73_two_approximation"
   ],
   "note": "C73_two_approximation: C73: the greedy landmarks cover within twice the radius of any other choice of `M` centres, in any pseudometric space containing the points."
  },
  {
   "property": "C74",
   "status": "partial",
   "theorems": [
    "Dreimac.C74_distinct_iff",
    "Dreimac.C74_distinct_partial",
    "Dreimac.C74_duplicates"
   ],
   "note": "C74_distinct_iff: C74: the sampled indices are distinct exactly when there are at least `M` pairwise distinct points, for any distances for which being at distance zero is an equivalence relation. | C74_distinct_partial: C74 (partial: distinct points only): with pairwise distinct points and `M \u2264 N` the landmarks are distinct. Missing: duplicate points, for which the property is false (`C74_duplicates`). | C74_duplicates: C74 is false with duplicate points: if there are no `M` pairwise distinct points then an index is repeated. (Already for two equal points and `M = 2`: the result is `[0, 0]`.)"
  },
  {
   "property": "C75",
   "status": "proved",
   "theorems": [
    "Dreimac.C75_pc_eq_dm",
    "Dreimac.C75_pc_eq_dm_library"
   ],
   "note": "C75_pc_eq_dm: C75: for a cross-similarity function that treats the rows of its first argument one by one, `get_greedy_perm_pc` returns what `get_greedy_perm_dm` returns on the full matrix of pairwise distances. | C75_pc_eq_dm_library: The hypothesis of C75 holds for the two cross-similarity functions of the library."
  },
  {
   "property": "C76",
   "status": "partial",
   "theorems": [
    "Dreimac.C76_geodesic_partial",
    "Dreimac.C76_geodesic_distinct_points_partial",
    "Dreimac.C76_duplicates"
   ],
   "note": "C76_geodesic_partial: C76 (partial: distinct landmarks): if the landmarks found are distinct, `landmark_geodesic_distance` returns a permutation of all points that starts with the landmarks; entry `(i, j)` of the array is the distance from the `i`-th landmark to the `j`-th point of the permutation, in particular its leading square block holds the distances between landmarks. Missing: repeated landmarks, for which the property is false (`C76_duplicates`). | C76_geodesic_distinct_points_partial: C76: with distances of which only the diagonal is zero (no two points at distance zero) the landmarks are distinct, so the result is a permutation. | C76_duplicates: C76 is false when a landmark is repeated: the returned list is longer than the number of points."
  },
  {
   "property": "C77",
   "status": "proved",
   "theorems": [
    "Dreimac.C77_torus",
    "Dreimac.C77_klein",
    "Dreimac.C77_torus_surjective",
    "Dreimac.C77_torus_injective",
    "Dreimac.C77_klein_injective",
    "Dreimac.C77_klein_glue",
    "Dreimac.C77_torus_glue",
    "Dreimac.C77_klein_surjective"
   ],
   "note": "C77_torus: C77: the points of `torus_3d` satisfy the equation of the torus. | C77_klein: C77: the points of `klein_bottle_4d` satisfy the equations of the Klein bottle. | C77_torus_surjective: C77: every point of the torus is reached by some draw. | C77_torus_injective: C77: for `0 < r < R` different draws of `torus_3d` give different points. | C77_klein_injective: C77: for `0 < r < R` different draws of `klein_bottle_4d` give different points. | C77_klein_glue: C77: the identification that makes the shape a Klein bottle: one turn of the second angle comes back with the first angle reversed; one turn of the first angle changes nothing. | C77_torus_glue: C77: the torus has no reversal: both angles are periodic. | C77_klein_surjective: C77: every solution of the equations of the Klein bottle is the row of some draws."
  },
  {
   "property": "C78",
   "status": "partial",
   "theorems": [
    "Dreimac.C78_line_patches",
    "Dreimac.C78_moving_dot_partial",
    "Dreimac.C78_moving_dot_wrong"
   ],
   "note": "C78_line_patches: C78: `line_patches` returns one row per pair of an angle and an offset, each with `dim * dim` pixels; the row of angle `i` and offset `j` is `i * n_offsets + j`, and its pixel `(a, b)` is the Gaussian profile of the signed distance to the line. | C78_moving_dot_partial: C78 (partial: `dim = 10`): `moving_dot(s, sigma, dim)` returns `s\u00b2` rows of `dim * dim` pixels. Missing: other values of `dim`, for which it is false (`C78_moving_dot_wrong`). | C78_moving_dot_wrong: C78 is false for `moving_dot`: the requested patch size is ignored, rows always have 100 pixels."
  },
  {
   "property": "C79",
   "status": "partial",
   "theorems": [
    "Dreimac.C79_moore_partial",
    "Dreimac.C79_points_and_entries",
    "Dreimac.C79_asymmetric"
   ],
   "note": "C79_moore_partial: C79 (partial): the matrix returned by `moore_space_distance_matrix` (as the first entry of a pair) has zero diagonal and entries between 0 and the distance of the points in the disk. Missing: symmetry, which is false (`C79_asymmetric`). | C79_points_and_entries: C79: the returned points are, in order, the draws scaled to `[-1, 1]\u00b2` that lie in the unit disk, and the entry for two points is the least length of the direct way and of the ways along the radius to the boundary circle, then by some multiple of a `prime`-th of a turn, then straight to the second point. | C79_asymmetric: C79 is false: with `prime = 2` the entries for the points `(1, 0)` and `(-3/10, -2/5)` of the disk differ in the two orders."
  },
  {
   "property": "C80",
   "status": "proved",
   "theorems": [
    "Dreimac.C80_grid",
    "Dreimac.C80_error"
   ],
   "note": "C80_grid: C80: `plot_patches` draws `N` patches of side `d` at distinct integer places of a square grid whose side is the least `g` with `N \u2264 g * g`; patch `i` shows row `i` of `P`, and all patches use the least and greatest entry of `P` as colour limits. | C80_error: C80: `plot_patches` raises `ValueError` exactly when there is no patch or pixel or the number of pixels is not a square."
  },
  {
   "property": "C81",
   "status": "proved",
   "theorems": [
    "Dreimac.C81_equal"
   ],
   "note": "C81_equal: C81: the three new ranges have the same length, which is the greatest of the old lengths; each keeps its centre and contains the old range (whichever end came first)."
  },
  {
   "property": "C82",
   "status": "partial",
   "theorems": [
    "Dreimac.C82_float64_never_terminates",
    "Dreimac.C82_three_classes_partial",
    "Dreimac.C82_five_classes_diverge",
    "Dreimac.C82_four_classes_partial"
   ],
   "note": "C82_float64_never_terminates: C82 is false in floating point. The reduction of the (orthogonal, already reduced) basis of two vectors of squared length `2 ^ (-1074)`, the smallest positive `float64`, does not terminate: `0.75 * 2 ^ (-1074)` is rounded up, the comparison in the loop fails, the two vectors are exchanged, and so on for ever. | C82_three_classes_partial: C82: for three linearly independent vectors `_lll` ends, although its Gram-Schmidt vectors are not orthogonal. In the basis returned `b\u2080, b\u2081` are reduced and `b\u2082` is size reduced: `|b\u2080\u00b7b\u2082| \u2264 |b\u2080|\u00b2/2` and the component of `b\u2082` along the part of `b\u2081` orthogonal to `b\u2080` is at most half of that part. | C82_five_classes_diverge: C82 fails for five classes, and for every larger number `n` of classes: there is an invertible matrix for which `_lll` never ends, and neither does it for any other basis with the same Gram matrix, such as the transposed Cholesky factor that `_reduce_circular_coordinates` computes. | C82_four_classes_partial: C82: for four linearly independent vectors `_lll` ends, although its Gram-Schmidt vectors are not orthogonal. In the basis returned `b\u2080, b\u2081` are reduced and `b\u2082, b\u2083` are size reduced against them: `|b\u2080\u00b7b\u1d62| \u2264 |b\u2080|\u00b2/2` and the component of `b\u1d62` along the part of `b\u2081` orthogonal to `b\u2080` is at most half of that part. (For five or more vectors it may not end, see `C82_five_classes_diverge`.)"
  },
  {
   "property": "C83",
   "status": "proved",
   "theorems": [
    "Dreimac.C83_one_class",
    "Dreimac.C83_two_classes",
    "Dreimac.C83_up_to_four_classes"
   ],
   "note": "C83_one_class: C83. A call for one valid class whose lifetime is long enough: without the cocycle check it returns one coordinate and stores the radius; with the check, a correct and complete solver and a stored class that is a cocycle modulo the prime, it returns one coordinate if the class has an integral lift, and otherwise fails with the message about integral lifts, and with no other error. | C83_two_classes: C83, two classes. A call for two valid classes with overlapping lifetimes, where the check is off or finds both lifted classes to be cocycles, ends for all sufficiently large numbers of iterations of the lattice reduction in the same way: with two coordinates, or with `LinAlgError`, and the latter only if the Gram matrix of the two forms `c - \u03b4f` on the Rips edges (with `f` the output of the least squares solver) has no Cholesky factorisation. | C83_up_to_four_classes: C83, up to four classes. A call for two to four valid classes with overlapping lifetimes, where the check is off or finds the lifted classes to be cocycles, ends for all sufficiently large numbers of iterations of the lattice reduction in the same way: with one coordinate per class, or with `LinAlgError`, and the latter exactly if the Gram matrix of the forms `c - \u03b4f` on the Rips edges (`f` the output of the least squares solver) has no Cholesky factorisation."
  },
  {
   "property": "C84",
   "status": "proved",
   "theorems": [
    "Dreimac.C84_lens_returns",
    "Dreimac.C84_projective_returns",
    "Dreimac.C84_complex_projective_returns"
   ],
   "note": "C84_lens_returns: C84 (lens). A call of `LensCoords.get_coordinates` with a valid class and a dimension `2 \u2264 complex_dim \u2264 n_landmarks` returns an array with one row per data point and `complex_dim` columns. | C84_projective_returns: C84 (projective). A call of `ProjectiveCoords.get_coordinates` with a valid class with values in `{0, 1}` and a dimension `1 \u2264 proj_dim < n_landmarks` returns an array with one row per data point and `proj_dim + 1` columns. | C84_complex_projective_returns: C84 (complex projective). A call of `ComplexProjectiveCoords.get_coordinates` with a valid class and a dimension `1 \u2264 proj_dim < n_landmarks`: if the check is off or the lifted class is a cocycle at the threshold, it returns an array with one row per data point and `proj_dim + 1` columns, otherwise it raises `NameError`."
  },
  {
   "property": "C85",
   "status": "proved",
   "theorems": [
    "Dreimac.C85_lens_history",
    "Dreimac.C85_projective_history",
    "Dreimac.C85_complex_projective_history"
   ],
   "note": "C85_lens_history: C85 (lens). The result of a call (array or error) does not depend on the calls made before it. | C85_projective_history: C85 (projective). The result of a call (array or error) does not depend on the calls made before it. | C85_complex_projective_history: C85 (complex projective). For stored cocycles with values in `0, \u2026, p - 1`, the result of a call (array or error) does not depend on the calls made before it."
  },
  {
   "property": "C86",
   "status": "proved",
   "theorems": [
    "Dreimac.C86_sphere",
    "Dreimac.C86_noisy_circle",
    "Dreimac.C86_bullseye",
    "Dreimac.C86_three_circles",
    "Dreimac.C86_trefoil_noisy",
    "Dreimac.C86_trefoil_exact",
    "Dreimac.C86_genus_two",
    "Dreimac.C86_genus_two_symmetric"
   ],
   "note": "C86_sphere: C86: the rows of `sphere` are unit vectors, if no draw is exactly the centre of the cube. | C86_noisy_circle: C86: the rows of `noisy_circle` differ from a point of the unit circle by at most half the noise in each coordinate, so by less than the noise in distance. | C86_bullseye: C86: rows `200 c, ..., 200 c + 199` of `bullseye` are near the circle of radius `c + 1`. | C86_three_circles: C86: `three_circles` has 50 rows near the unit circle, 500 near the circle of radius 2 around `(4, 0)` and 500 near the circle of radius 2.5 around `(-4, 0)`. | C86_trefoil_noisy: C86: the rows of `trefoil(noisy=True)` are at distance 1 from the core curve, which is closed and does not meet itself. | C86_trefoil_exact: C86: `trefoil(noisy=False)` returns `n` different points, all on the tube of `trefoil(noisy=True)` (with `v = 0`). | C86_genus_two: C86: every row of `genus_two_surface` lies on the left torus and left of the plane `x = 4.5`, or on the right torus and right of that plane. | C86_genus_two_symmetric: C86: the sample of the genus two surface is symmetric under the reflection in the plane `x = 4.5`."
  },
  {
   "property": "C87",
   "status": "proved",
   "theorems": [
    "Dreimac.C87_colors",
    "Dreimac.C87_sphere_boundary",
    "Dreimac.C87_mesh"
   ],
   "note": "C87_colors: C87: for a function that is not constant, `plot_rp3_stereo` looks up colour indices in `0, ..., 255`: the least value gets 0, the greatest 255, and the order of the values is kept. | C87_sphere_boundary: C87: the two curves of `plot_2sphere_boundary` are on the unit circles with centres `(0, 0)` and `(2.5, 0)`, and both are closed. | C87_mesh: C87: the wireframe of `plot_3sphere_mesh` is on the unit sphere, its first and last meridian agree, and its first and last parallel are the poles."
  },
  {
   "property": "C88",
   "status": "proved",
   "theorems": [
    "Dreimac.C88_toroidal_constructor",
    "Dreimac.C88_lens_constructor",
    "Dreimac.C88_projective_constructor",
    "Dreimac.C88_complex_projective_constructor",
    "Dreimac.C88_maxdim_assertion"
   ],
   "note": "C88_toroidal_constructor: C88 (circular and toroidal). For a data set with at least one and at most 65536 landmarks, described by an array of floats, with ripser behaving as promised: the constructor of `ToroidalCoords` (and of `CircularCoords`) succeeds; the object stores the distances from the landmarks to the data points, and ripser's classes by decreasing persistence, with landmark numbers as vertices; every stored array of dimension `q` lists different `q`-simplices with values in `0, \u2026, p - 1`; and the object has all properties that the theorems about `get_coordinates` assume. | C88_lens_constructor: C88 (lens). The same for the constructor of `LensCoords`. | C88_projective_constructor: C88 (projective). The same for the constructor of `ProjectiveCoords`; the classes are computed modulo 2. | C88_complex_projective_constructor: C88 (complex projective). The same for the constructor of `ComplexProjectiveCoords`, with at most 2345 landmarks. | C88_maxdim_assertion: A constructor call with `maxdim = 0` is rejected by an assertion, whatever ripser returns."
  },
  {
   "property": "C89",
   "status": "proved",
   "theorems": [
    "Dreimac.C89_circular_coordinates"
   ],
   "note": "C89_circular_coordinates: C89. The whole of `CircularCoords(X, n_landmarks, prime = p).get_coordinates(perc, cocycle_idx = z, \u2026)` for a data set with distances `\u03b4`: the constructor succeeds; if ripser's class number `j` is the `z`-th most persistent one, is alive on `[b, d)` and its cocycle lists the values `\u03be`, and its lifetime is long enough, then, after any history of calls, for the radius `r` prescribed by `perc`, if the threshold `2 * r` comes before the death in ripser's precision (always for `perc` between 0 and 1 and an exact ripser, `belowDeath_exact`; for single precision see C119): * if some integer cocycle on the landmarks (at threshold `2 * r`) is congruent to `\u03be` modulo `p`, the call returns the circular coordinate of such a cocycle `c` (the one with values between `-p / 2` and `p / 2`, if there is one), for the normalised bump weights and a potential that minimises the energy (with an exact least squares solver); * otherwise it fails with the error that reports the missing lift."
  },
  {
   "property": "C90",
   "status": "proved",
   "theorems": [
    "Dreimac.C90_toroidal_coordinates"
   ],
   "note": "C90_toroidal_coordinates: C90. The whole of `ToroidalCoords(X, n_landmarks, prime = p).get_coordinates(perc, cocycle_idxs = [z 0, \u2026], \u2026)` for a data set with distances `\u03b4`: the constructor succeeds; for any selection of classes with finite lifetimes whose common lifetime `[B, D)` is not empty and long enough, for the radius `r` prescribed by `perc`, and after any history of calls: if the call returns, it returns one coordinate per selected class, and there are integer cocycles `c a` congruent to the selected classes modulo `p` (those with values between `-p / 2` and `p / 2`, if they exist), potentials `f a` that minimise their energies (with an exact least squares solver) and a unimodular integer matrix `U`, such that the `q`-th coordinate is the circular coordinate of `\u2211 a, U q a * c a` with potential `\u2211 a, U q a * f a`, all for the same normalised bump weights."
  },
  {
   "property": "C91",
   "status": "proved",
   "theorems": [
    "Dreimac.C91_lens_coordinates",
    "Dreimac.C91_projective_coordinates"
   ],
   "note": "C91_lens_coordinates: C91 (lens). The whole of `LensCoords(X, n_landmarks, prime = p).get_coordinates(perc, cocycle_idx = z, complex_dim = q, \u2026)` for a data set with distances `\u03b4`, with `2 \u2264 q \u2264 n_landmarks`: the constructor succeeds; if ripser's class number `j` is the `z`-th most persistent one, is alive on `[b, d)`, its cocycle lists the values `\u03be`, and its lifetime is long enough, then, after any history of calls, for the radius `r` prescribed by `perc`, the call returns an array with one row per data point and `q` columns, which is the dimensionality reduction of the array whose row `i`, for a data point `i` in the ball of the landmark `u = \u03b2 i`, has the entry `\u221a(w v i) * exp(2\u03c0i \u03be(u, v) / p)` for the landmark `v`, where `w` are the normalised bump weights. This row has norm 1, and with any other ball containing the data point it would be multiplied by a `p`-th root of unity. | C91_projective_coordinates: C91 (projective). The whole of `ProjectiveCoords(X, n_landmarks).get_coordinates(perc, cocycle_idx = z, proj_dim = q, \u2026)` for a data set with distances `\u03b4`, with `1 \u2264 q < n_landmarks`: the constructor succeeds; if ripser's class number `j` is the `z`-th most persistent one, is alive on `[b, d)`, its cocycle lists the values `\u03be`, and its lifetime is long enough, then, after any history of calls, for the radius `r` prescribed by `perc`, the call returns an array with one row per data point and `q + 1` columns, which is the dimensionality reduction of the array whose row `i`, for a data point `i` in the ball of the landmark `u = \u03b2 i`, has the entry `\u221a(w v i) * (-1) ^ \u03be(u, v)` for the landmark `v`, where `w` are the normalised bump weights. This row has norm 1, and with any other ball containing the data point it would change at most its sign."
  },
  {
   "property": "C92",
   "status": "proved",
   "theorems": [
    "Dreimac.C92_complex_projective_coordinates"
   ],
   "note": "C92_complex_projective_coordinates: C92. The whole of `ComplexProjectiveCoords(X, n_landmarks, prime = p).get_coordinates(perc, cocycle_idx = z, proj_dim = q, \u2026)` for a data set with distances `\u03b4`, with `1 \u2264 q < n_landmarks \u2264 2345`: the constructor succeeds; if ripser's class number `j` of dimension 2 is the `z`-th most persistent one, is alive on `[b, d)`, has the array `c\u2080`, and its lifetime is long enough, then there is an integer lift `c` of the array (balanced values, zero on the other triples), such that after any history of calls, for the radius `r` prescribed by `perc`: if the check is off or `c` is an integer cocycle at threshold `2 r`, the call returns an array with one row per data point and `q + 1` columns, which is the dimensionality reduction of the array whose row `i`, for a data point `i` in the ball of the landmark `u = \u03b2 i`, is the vector of `c` computed with this ball, for the normalised bump weights `w` and a 1-cochain `\u03bd` that minimises the energy of `c - d\u03bd` (with an exact least squares solver); if `c` is an integer cocycle, this row has norm 1, and with any other ball containing the data point it would be multiplied by a complex number of modulus 1. If the check is on and `c` is not an integer cocycle, the call raises `NameError` (as long as the number of quadruples of landmarks is at most `2 ^ 31`)."
  },
  {
   "property": "C93",
   "status": "proved",
   "theorems": [
    "Dreimac.C93_table_exact_or_raises",
    "Dreimac.C93_constructor_limits",
    "Dreimac.C93_index_arithmetic_exact"
   ],
   "note": "C93_table_exact_or_raises: C93. Building the lookup table either raises `OverflowError`, exactly when some entry `C(i, l)` with `i \u2264 N`, `l \u2264 D + 1` does not fit into 64 bits, or stores every binomial coefficient exactly. | C93_constructor_limits: C93. The tables of the constructors: `ToroidalCoords` and `CircularCoords` (dimension 2) can be built for exactly up to 3810779 landmarks, `ComplexProjectiveCoords` (dimension 3) for exactly up to 121977; above, the constructor raises `OverflowError`. | C93_index_arithmetic_exact: C93. With a table that was built without an exception, the compiled 64-bit index arithmetic never wraps around: for every simplex of every dimension of the table, it returns the exact index (see C01, C02)."
  },
  {
   "property": "C94",
   "status": "proved",
   "theorems": [
    "Dreimac.C94_coordinates_local",
    "Dreimac.C94_equal_points",
    "Dreimac.C94_lens_reordering",
    "Dreimac.C94_projective_reordering",
    "Dreimac.C94_complex_projective_reordering",
    "Dreimac.C94_ppca_reordering"
   ],
   "note": "C94_coordinates_local: C94. The circular and toroidal coordinates of a data point depend only on the landmarks and on its own distances to them. Take two objects with the same landmarks (the same diagrams, cocycles and distances between landmarks) and otherwise arbitrary data sets: a call raises the same exception on both, or it returns the same number of coordinates, and any data points `p`, `p'` of the two that are at the same distances from the landmarks have the same coordinates. In particular adding, removing, repeating or reordering data points that are not landmarks changes no coordinate of the others. | C94_equal_points: C94. Data points at the same distances from the landmarks have the same coordinates. | C94_lens_reordering: C94. `LensCoords`: if the data points are reordered, so are the coordinates (with the same variance, radii and exceptions). | C94_projective_reordering: C94. `ProjectiveCoords`: if the data points are reordered, so are the coordinates. | C94_complex_projective_reordering: C94. `ComplexProjectiveCoords`: if the data points are reordered, so are the coordinates. | C94_ppca_reordering: C94. The dimension reduction `ppca` commutes with a reordering of the rows of its argument (the data points)."
  },
  {
   "property": "C95",
   "status": "proved",
   "theorems": [
    "Dreimac.C95_bumps_unit_free",
    "Dreimac.C95_toroidal_units",
    "Dreimac.C95_projective_units",
    "Dreimac.C95_projective_constructors"
   ],
   "note": "C95_bumps_unit_free: C95. The bump functions of the package are unit free. | C95_toroidal_units: C95. Circular and toroidal coordinates do not depend on the unit of length. Multiply the data by `c > 0` (so that ripser's diagrams and distances are multiplied by `c`): the constructor succeeds on both or fails on both with the same exception, every call of `get_coordinates` raises the same exception on both objects or returns the same coordinates for every data point, and the reported radii are multiplied by `c`. | C95_projective_units: C95. The coordinates of `LensCoords`, `ProjectiveCoords` and `ComplexProjectiveCoords` do not depend on the unit of length either: for objects whose diagrams and distances differ by the factor `c`, with otherwise equal fields, every call has the same outcome and reports radii multiplied by `c`. | C95_projective_constructors: C95. The constructors of these classes: with scaled data and ripser results they produce these scaled objects, or the same exception."
  },
  {
   "property": "C96",
   "status": "proved",
   "theorems": [
    "Dreimac.C96_weights_unit_interval",
    "Dreimac.C96_weights_sum",
    "Dreimac.C96_float64_sum"
   ],
   "note": "C96_weights_unit_interval: C96. In the arithmetic of any number format, with any order of summation: at every data point the weights are all `nan`, or they are all finite and in `[0, 1]`, and 0 for landmarks whose ball does not contain the point. | C96_weights_sum: C96 (sum). If the sum of the bump values does not overflow, then the weights of every data point whose weights are not `nan` add up to 1 up to rounding: with relative error `u` and underflow error `eta` of the format, and `L` landmarks, `(1 - u) / (1 + u)^(L-1) - L eta \u2264 \u2211 w \u2264 (1 + u) / (1 - u)^(L-1) + L eta`. | C96_float64_sum: C96 (`float64`). For at most `2^50` landmarks and bump values up to `2^900` the weights of every data point that are not `nan` add up to 1 with an error of at most `(L + 1) 2\u207b\u2075\u00b2`."
  },
  {
   "property": "C97",
   "status": "partial",
   "theorems": [
    "Dreimac.C97_linear_partial",
    "Dreimac.C97_quadratic_loses_points",
    "Dreimac.C97_exponential_loses_points"
   ],
   "note": "C97_linear_partial: C97 (partial). In the arithmetic of any number format with gradual underflow the *linear* bump function loses no point: the weights of a data point are `nan` exactly if it lies in no ball, and the warning carries the number of these points. Missing: the quadratic and the exponential bump functions, for which this is false. | C97_quadratic_loses_points: C97 is false (quadratic). If the radius exceeds the distance to the only landmark by at most `2\u207b\u2075\u00b3\u2078`, then the square underflows: the point lies in the ball, but is reported as not covered and gets `nan` weights. | C97_exponential_loses_points: C97 is false (exponential). With radius 1, a point at distance `4095/4096` from the only landmark is lost although it lies well inside the ball: the bump value `exp(-2048.25)` underflows."
  },
  {
   "property": "C98",
   "status": "partial",
   "theorems": [
    "Dreimac.C98_angle_closed_interval_partial",
    "Dreimac.C98_full_turn_attained"
   ],
   "note": "C98_angle_closed_interval_partial: C98 (partial). In the arithmetic of any number format every circular coordinate that is not `nan` lies in the closed interval from 0 to the machine number `2 * np.pi` (`tau`), and agrees with the (rounded) number of turns times `tau` modulo `tau` up to the error of a single rounding. Missing: `tau` itself is not excluded. | C98_full_turn_attained: C98 is false. A circle-valued integral of `-2\u207b\u2076\u2070` turns gives the coordinate `2\u03c0` and not 0: the interval is not half-open."
  },
  {
   "property": "C99",
   "status": "partial",
   "theorems": [
    "Dreimac.C99_endpoints_exact",
    "Dreimac.C99_threshold_error_partial",
    "Dreimac.C99_threshold_outside_interval",
    "Dreimac.C99_radius_is_half_the_threshold"
   ],
   "note": "C99_endpoints_exact: C99 (end points). `perc = 0` gives exactly the start and `perc = 1` exactly the end of the admissible interval, in every number format. | C99_threshold_error_partial: C99 (partial). In every number format: the error is raised exactly if the admissible interval is empty; otherwise the threshold differs from the exact interpolation `t = (1 - perc) * start + perc * death` by at most three roundings: `(1 - u)\u00b3 t - 2 eta \u2264 threshold \u2264 (1 + u)\u00b3 t + 2 (1 + u) eta`. Missing: the threshold need not lie in the interval. | C99_threshold_outside_interval: C99 is false. For a class whose life time is one unit in the last place, `perc = 0.46` gives a threshold beyond the death, and `perc = 0.07` (and another class) one before the start. | C99_radius_is_half_the_threshold: C99 (radius). In `float64` the radius is exactly half of the threshold, unless the threshold is tiny (below `2^-1021`); so by the triangle inequality two balls with a common point have centres at distance less than the threshold."
  },
  {
   "property": "C100",
   "status": "partial",
   "theorems": [
    "Dreimac.C100_distance_partial",
    "Dreimac.C100_distinct_points_at_distance_zero",
    "Dreimac.C100_self_distance_positive",
    "Dreimac.C100_square_error",
    "Dreimac.C100_square_error_tree",
    "Dreimac.C100_float64_distance_error"
   ],
   "note": "C100_distance_partial: C100 (partial). In every number format, for every order of summation, as long as no intermediate result overflows: the computed distance is a finite non-negative number; it is symmetric if the matrix product is; and a point has distance 0 from itself if the matrix product sums the squares as `np.sum` does. Missing: the distance of different points can be 0, and that of a point from itself positive. | C100_distinct_points_at_distance_zero: C100 is false (different points). In `float64` the computed distance of the points `2^27` and `2^27 + 1` on a line (whose distance is 1) is 0, whatever the order of summation. | C100_self_distance_positive: C100 is false (equal points). If the matrix product uses fused multiply-add instructions, then the computed distance of the point `(0.3, 0.1)` from itself is positive (about `5\u00b710\u207b\u2079`). | C100_square_error: C100 (squared distances). In every number format and for every order of summation: if the computed squared distance and inner product are finite, then the former differs from the squared Euclidean distance in dimension `d` by at most `((1+u)^(d+2) + (1+u)^2 - 2) (|x|\u00b2 + |y|\u00b2) + 2 d (1+u)^(d+1) eta + 2 (1+u)^2 \u03b4`, where `\u03b4` is the error of the inner product. | C100_square_error_tree: C100 (squared distances, rounded products). If the matrix product rounds every product and every addition (in any order), the error is at most `2 ((1+u)^(d+2) - 1) (|x|\u00b2 + |y|\u00b2) + 4 d (1+u)^(d+1) eta`. | C100_float64_distance_error: C100 (`float64`). For points with coordinates up to `2^400` in dimension at most `2^49`, every order of summation and every matrix product that rounds its products and additions: the computed distance is finite, non-negative, and differs from the Euclidean distance `dist` by at most `2\u207b\u2075\u00b3 dist + (1 + 2\u207b\u2075\u00b3) sqrt((d + 2) 2\u207b\u2075\u00b9 (|x|\u00b2 + |y|\u00b2) + d 2\u207b\u00b9\u2070\u2077\u00b2) + 2\u207b\u00b9\u2070\u2077\u2075`."
  },
  {
   "property": "C101",
   "status": "proved",
   "theorems": [
    "Dreimac.C101_change_integral",
    "Dreimac.C101_float64_integral"
   ],
   "note": "C101_change_integral: C101 The lattice reduction, whatever the rounding errors in `B`, in the Gram-Schmidt vectors and in the inner products: if it returns, the operations it performed form an integer matrix of determinant 1 or -1, and as long as the integers that occur stay below the bound up to which the format represents all integers, the returned `change` is exactly that matrix. | C101_float64_integral: C101 For `float64` the bound is `2 ^ 53`."
  },
  {
   "property": "C102",
   "status": "partial",
   "theorems": [
    "Dreimac.C102_distinct_landmarks_partial",
    "Dreimac.C102_copies_lost",
    "Dreimac.C102_class_lost",
    "Dreimac.C102_wrong_coordinates"
   ],
   "note": "C102_distinct_landmarks_partial: C102, distinct landmarks. If the landmarks are pairwise different data points, the constructor stores the cocycles that ripser computed on the positions of the landmarks. | C102_copies_lost: C102 fails with repeated landmarks. If the `a`-th and the `b`-th landmark, `a < b`, are the same data point, then no stored cocycle, of any dimension, has the vertex `a`: whatever ripser computed on the simplices at the landmark `a` is lost. | C102_class_lost: C102 fails with repeated landmarks. If the landmarks `a < b` are the same data point, the rows of the stored class (which do not contain `a`, by `C102_copies_lost`) are edges, and the stored class is a cocycle modulo `p` on the Rips complex at the threshold `t`, then it vanishes modulo `p` on every edge of that complex at `b`, and vanishes on every edge at `a`: a class that is not trivial around this data point is not stored. | C102_wrong_coordinates: C102 fails with repeated landmarks: a call. The data set consists of the four corners 0, 1, 2, 3 of a square, in this order around the square, and two further copies of the corner 0; five landmarks are requested, and ripser returns a cocycle that is what it promises (`dupRaw_promise`). Whether or not the cocycle condition is checked, the call returns coordinates, and they do not go around the circle: the corners get angles of `y - 5/12`, `y - 4/12`, `y - 2/12` and `y` turns, all on an arc of less than half a turn, with the corners 3 and 0, which are neighbours, at its two ends."
  },
  {
   "property": "C103",
   "status": "proved",
   "theorems": [
    "Dreimac.C103_lossless"
   ],
   "note": "C103_lossless: C103. If all data points (unit vectors) lie in a linear subspace spanned by `projDim + 1` vectors `w`, the reduction to `projDim + 1` dimensions loses nothing, in every mode: the returned vectors are finite and have the same inner products as the data points, so they are the same configuration of points of the projective (or lens) space up to a unitary map."
  },
  {
   "property": "C104",
   "status": "proved",
   "theorems": [
    "Dreimac.C104_direct",
    "Dreimac.C104_one_by_one",
    "Dreimac.C104_exponential"
   ],
   "note": "C104_direct: C104 (direct). In mode \"direct\" the result is one principal component reduction to `projDim + 1` dimensions. | C104_one_by_one: C104 (one-by-one). In mode \"one-by-one\" the result is obtained by principal component reductions that drop one dimension each: to `n_dim - 1`, `n_dim - 2`, ..., `projDim + 1` dimensions. | C104_exponential: C104 (exponential). In mode \"exponential\" the result is obtained by principal component reductions that halve the number `e = n_dim - (projDim + 1)` of superfluous dimensions (rounded down) as long as possible; a last one goes to `projDim + 1` dimensions."
  },
  {
   "property": "C105",
   "status": "proved",
   "theorems": [
    "Dreimac.C105_winding_numbers",
    "Dreimac.C105_winding_number"
   ],
   "note": "C105_winding_numbers: C105 (several classes). A checked call; a closed path of data points with each two consecutive points in the ball of a landmark, and `M` a bound on the harmonic form of the `k`-th coordinate such that consecutive points have close weights (`M \u2211 |\u0394w| < 1/2`; automatic if `M \u2264 1/4`). Then the `k`-th coordinate turns, along the path, exactly as many times as the integer cocycle `\u2211 j, U k j * c j` of C35 says on the closed path of landmarks. | C105_winding_number: C105 (one class). `CircularCoords.get_coordinates`: there is an integer cocycle `c`, congruent to the selected class modulo the prime, such that along every closed path with small steps the coordinate turns exactly `loopVal c` times; in particular the number of turns is an integer congruent modulo the prime to the value of the stored class on the path of landmarks, and the coordinate is not constant along a path on which that value is not divisible by the prime."
  },
  {
   "property": "C106",
   "status": "proved",
   "theorems": [
    "Dreimac.C106_offset",
    "Dreimac.C106_center",
    "Dreimac.C106_linear_combination"
   ],
   "note": "C106_offset: C106. `offset` changes no number of turns. | C106_center: C106. `center` changes no number of turns along a path `i 0, ..., i n` of data points. | C106_linear_combination: C106. Row `i` of `linear_combination` with an integer matrix `A` turns `\u2211 j, A i j * turns (map j)` times, if the steps `\u2211 j, |A i j| |step of map j|` stay below half a turn."
  },
  {
   "property": "C107",
   "status": "proved",
   "theorems": [
    "Dreimac.C107_lens_holonomy",
    "Dreimac.C107_projective_holonomy"
   ],
   "note": "C107_lens_holonomy: C107 (lens). A call of `LensCoords.get_coordinates` that covers all data points, with a class that is a cocycle modulo the prime and a correct eigenvector routine, and with `complex_dim = D` such that the reduction to `D` dimensions loses nothing (for instance `D = n_landmarks`). Then the returned rows `y` know the class: along every closed path of data points with consecutive points in the ball of a landmark, the product of the inner products of consecutive rows is a positive multiple of `exp(-2\u03c0i s / p)`, where `s` is the value of the class on the closed path of these landmarks. So this phase, which is the same for all choices of representatives of the points of the lens space, is trivial exactly if the prime divides `s`. | C107_projective_holonomy: C107 (real projective). The same for `ProjectiveCoords.get_coordinates` with `proj_dim = D`: the product of the inner products of consecutive rows along the closed path is positive if the class has an even value on the path of landmarks, and negative if the value is odd."
  },
  {
   "property": "C108",
   "status": "proved",
   "theorems": [
    "Dreimac.C108_check_neutral",
    "Dreimac.C108_cp_check_neutral",
    "Dreimac.C108_unchecked_ignores_solver",
    "Dreimac.C108_cp_unchecked_ignores_solver"
   ],
   "note": "C108_check_neutral: C108 (circular and toroidal coordinates). If the selected classes are integer cocycles after lifting, on the Rips complex at the threshold of the call, the flag `check_and_repair` (`check_cocycle_condition`) changes neither the result nor the object, whatever the solvers (in particular the integer program) are. | C108_cp_check_neutral: C108 (complex projective coordinates). If the selected class, born at `b` and dying at `d`, is an integer 2-cocycle after lifting, on the Rips complex at the threshold of the call, the flag changes neither the result nor the object. | C108_unchecked_ignores_solver: C108 (unchecked calls). Without the flag the integer program is not solved at all: the call does not depend on the solver for it."
  },
  {
   "property": "C109",
   "status": "partial",
   "theorems": [
    "Dreimac.C109_northpole_argument_partial",
    "Dreimac.C109_overwritten",
    "Dreimac.C109_integer_array_raises"
   ],
   "note": "C109_northpole_argument_partial: C109 (partial). A point of the closed unit disk is left alone, whatever the type of the array, and the call returns it and the vector above it; for an array of floats the call returns the point and the vector of C69, for every point. Missing: points outside the disk, where the argument is overwritten (`C109_overwritten`) or, for integers, an exception is raised (`C109_integer_array_raises`). | C109_overwritten: C109 is false. For every point outside the closed unit disk the array of floats that is passed contains another point after the call, namely the returned one on the unit circle: the selected point is lost. (A second call with the array returns the same.) | C109_integer_array_raises: C109 is false (integers). For every array of integers outside the closed unit disk the call raises a `TypeError`."
  },
  {
   "property": "C110",
   "status": "proved",
   "theorems": [
    "Dreimac.C110_glueing",
    "Dreimac.C110_sphere_arrows",
    "Dreimac.C110_projective_arrows"
   ],
   "note": "C110_glueing: C110 (sphere). `stereographic_projection_hemispheres` (any dimension `d \u2265 2` and any centre, with pole `w`) at a point `x` of the equator: there is a point `v` of the unit circle such that `x` goes to `v` in the second disk (whose centre is at 2.5 on the first axis), points of the upper hemisphere that converge to `x` have images that converge to the same point of the second disk, and points of the lower hemisphere that converge to `x` have images that converge to `v` in the first disk: leaving the first disk at `v` is entering the second disk at `v + 2.5`. | C110_sphere_arrows: C110 (sphere, arrows). The arrows of `plot_2sphere_boundary` are, for the four points `v = (a, b)` of the unit circle on the axes: one arrow of the first disk at `0.9 v` pointing outwards and one of the second disk at `1.1 v` (relative to its centre) pointing inwards, so they show the glueing of `C110_glueing`. | C110_projective_arrows: C110 (projective plane). The curve of `plot_proj_boundary` and `plot_rp2_stereo` is closed and on the unit circle; its arrows are a pair of antipodal arrows, as antipodal points of the circle are the same point of the projective plane (C66): with every arrow the arrow rotated by half a turn is drawn."
  },
  {
   "property": "C111",
   "status": "proved",
   "theorems": [
    "Dreimac.C111_circular_winding",
    "Dreimac.C111_toroidal_winding"
   ],
   "note": "C111_circular_winding: C111 (one class). The whole of `CircularCoords(X, n_landmarks, prime = p).get_coordinates(perc, cocycle_idx = z, \u2026)` as in C89: there is an integer cocycle `c` congruent to the class `\u03be` of ripser modulo `p` (and a potential `f`) such that along every closed path of data points with small steps the returned coordinate turns exactly as often as `c` says on the path of landmarks: an integer congruent modulo `p` to the value of the class on that path, which is not zero if that value is not divisible by `p`. | C111_toroidal_winding: C111 (several classes). The whole of `ToroidalCoords(X, n_landmarks, prime = p).get_coordinates(perc, cocycle_idxs, \u2026)` as in C90: there are integer cocycles `c a` congruent to the selected classes modulo `p` and a unimodular integer matrix `U` such that along every closed path of data points with small steps the `q`-th coordinate turns exactly `\u2211 a, U q a * (value of c a on the path of landmarks)` times; if the value of some selected class on the path is not divisible by `p`, some coordinate turns."
  },
  {
   "property": "C112",
   "status": "proved",
   "theorems": [
    "Dreimac.C112_lens_holonomy",
    "Dreimac.C112_projective_holonomy"
   ],
   "note": "C112_lens_holonomy: C112 (lens). The whole of `LensCoords(X, n_landmarks, prime = p).get_coordinates(perc, cocycle_idx = z, complex_dim = n_landmarks, \u2026)` for a data set with distances `\u03b4`, as in C91, if the balls cover the data set: the call returns an array of finite rows `y`, and along every closed path of data points with consecutive points in the ball of a landmark the product of the inner products of consecutive rows is a positive multiple of `exp(-2\u03c0i s / p)`, where `s` is the value of ripser's class `\u03be` on the path of landmarks. The phase is trivial exactly if `p` divides `s`. | C112_projective_holonomy: C112 (real projective). The whole of `ProjectiveCoords(X, n_landmarks).get_coordinates(perc, cocycle_idx = z, proj_dim = n_landmarks - 1, \u2026)`, as in C91, if the balls cover the data set: along every closed path of data points with consecutive points in the ball of a landmark the product of the inner products of consecutive rows is positive if ripser's class has an even value on the path of landmarks, and negative if it has an odd value."
  },
  {
   "property": "C113",
   "status": "proved",
   "theorems": [
    "Dreimac.C113_graph_distance",
    "Dreimac.C113_metric",
    "Dreimac.C113_permutation",
    "Dreimac.C113_all_neighbours",
    "Dreimac.C113_describes_data"
   ],
   "note": "C113_graph_distance: C113: `landmark_geodesic_distance` succeeds; entry `(i, j)` of its first result is the length of a shortest chain of neighbours from landmark `i` to the `j`-th point of its second result (infinite if there is none), in a graph that joins every point to `n_neighbors` nearest points; the landmarks are a farthest point sample of these distances; the points are all listed; and the entries are all finite exactly if the graph is connected. | C113_metric: C113: the array of geodesic distances has zeros where the column is the landmark of the row, is symmetric on the landmarks, satisfies the triangle inequality, and its entries are at least the Euclidean distances. | C113_permutation: C113: if the points are pairwise different, the second result is a permutation of the points. | C113_all_neighbours: C113: with as many neighbours as points the distances are the Euclidean ones. | C113_describes_data: C113: if the entries are finite, the array is a distance matrix that can be passed to the coordinate constructors: the data points are the columns and the landmarks are the first columns."
  },
  {
   "property": "C114",
   "status": "proved",
   "theorems": [
    "Dreimac.C114_offset",
    "Dreimac.C114_offset_zero",
    "Dreimac.C114_center",
    "Dreimac.C114_linear_combination",
    "Dreimac.C114_identity_row",
    "Dreimac.C114_levelset_hard",
    "Dreimac.C114_levelset_smooth",
    "Dreimac.C114_sinebow",
    "Dreimac.C114_whole_turn_not_exact",
    "Dreimac.C114_end_point_attained"
   ],
   "note": "C114_offset: C114: `offset` returns an angle in the closed interval from 0 to `tau`, the machine number `2 * np.pi`; it is the exact rotation modulo `tau` up to three roundings. | C114_offset_zero: C114: `offset` by 0 changes nothing: exactly for machine numbers in the half-open interval; `tau` becomes 0. | C114_center: C114: `center` moves all angles by the same amount up to three roundings, to angles in the closed interval. | C114_linear_combination: C114: `linear_combination` returns angles in the closed interval (or `nan`, if an angle is `nan` or a sum overflows); up to rounding they are the integer combinations modulo `tau`. | C114_identity_row: C114: a row of the identity matrix returns its angle exactly, if it is a machine number less than `tau`. | C114_levelset_hard: C114: `levelset_coloring` without smoothing returns 0 or 1 for every finite quotient. | C114_levelset_smooth: C114: `levelset_coloring` with smoothing returns numbers in the unit interval. | C114_sinebow: C114: the channels of `to_sinebow` are numbers in the unit interval. | C114_whole_turn_not_exact: Rotations by whole turns, and rotations back, are not exact: the angle 1/10 rotated by one turn, and by a tenth of a turn and back. | C114_end_point_attained: The end point `2 * np.pi` can be returned: the angle `2\u207b\u2076\u2070` rotated by less than nothing."
  },
  {
   "property": "C115",
   "status": "proved",
   "theorems": [
    "Dreimac.C115_class_in_floating_point"
   ],
   "note": "C115_class_in_floating_point: C115. In `float64` the circular coordinate `y` of a covered data point `i` is finite, lies between 0 and `tau`, and over the ball of every landmark `l` that contains the point it is the lift `\u2211 (f m + c (l, m)) w m` of the class modulo a full turn, up to `(20 L + 51) A 2\u207b\u2075\u00b3` turns. Hypotheses: the weights do not overflow (`hbb`), the cocycle condition holds on the Rips complex (`hc`), and landmarks whose balls share the point are joined by an edge."
  },
  {
   "property": "C116",
   "status": "proved",
   "theorems": [
    "Dreimac.C116_winding_in_floating_point"
   ],
   "note": "C116_winding_in_floating_point: C116. In `float64`: along every closed path of covered data points with consecutive points in the ball of a landmark, the computed coordinates turn around the circle exactly as often as the cocycle says, if over each ball the lift changes by less than half a turn (less a rounding allowance) between consecutive points. The length of the path does not matter."
  },
  {
   "property": "C117",
   "status": "proved",
   "theorems": [
    "Dreimac.C117_order_of_classes"
   ],
   "note": "C117_order_of_classes: C117. Two calls with the same classes in another order (the object may have been used in between, see C08): the radius is the same, and at every covered data point the coordinates of the second call are integer combinations, by a fixed matrix of determinant `1` or `-1`, of those of the first call."
  },
  {
   "property": "C118",
   "status": "proved",
   "theorems": [
    "Dreimac.C118_coverage",
    "Dreimac.C118_circular",
    "Dreimac.C118_larger_perc"
   ],
   "note": "C118_coverage: C118. `ToroidalCoords(X, n_landmarks).get_coordinates(\u2026)` (and `CircularCoords`) after any history, if it returns with a radius `r`: the data points without a coordinate (NaN) are exactly those at distance at least `r` from all landmarks, for every coordinate; no row has NaN if every row is a landmark (and `r > 0`), or if ripser's landmarks are a farthest point sample and the rows can be split into `n_landmarks` groups of diameter less than `r`. | C118_circular: C118. `CircularCoords(X, n_landmarks).get_coordinates(perc, cocycle_idx = z, check_cocycle_condition = False, \u2026)` after any history: it returns for every class that lives long enough, and NaN appears exactly at the data points at distance at least `r` from all landmarks, where `2 * r` is the threshold given by `perc`; so at no row under the conditions of `C118_coverage`. | C118_larger_perc: C118. A larger `perc` covers at least as many points: if two calls with the same arguments except `perc \u2264 perc'` (the second one after any history) return with finite radii, a data point without a coordinate in the second has none in the first."
  },
  {
   "property": "C119",
   "status": "partial",
   "theorems": [
    "Dreimac.C119_threshold_partial",
    "Dreimac.C119_circular_coordinates_partial",
    "Dreimac.C119_default_percentages",
    "Dreimac.C119_wrong_coordinates"
   ],
   "note": "C119_threshold_partial: C119. The threshold prescribed by `perc` comes before the death in ripser's precision if the part `(1 - perc) * (d - start)` of the lifetime that the percentage leaves is larger than the conversion error at the death. | C119_circular_coordinates_partial: C119. The whole of `CircularCoords(\u2026).get_coordinates(\u2026)` (see C89) with a ripser that works in single precision: if the percentage leaves more than the fraction `2 ^ -24` of the death (and the underflow error) of the lifetime, the call returns the circular coordinate of an integer cocycle congruent to the class, or reports that there is none. | C119_default_percentages: The defaults of the code (`perc = 0.5` and, for lens and projective coordinates, `perc = 0.9`) leave enough if the lifetime is at least one millionth of the death, and the death is not tiny. | C119_wrong_coordinates: C119 fails at `perc = 1`. The four corners 0, 1, 2, 3 of a square, in this order around the square, with four landmarks; the double `4 - 2 ^ -24` is the distance of opposite corners, and ripser, working in single precision, keeps its promise (`sqRipser_spec`). The call with `perc = 1` uses the threshold 4, at which the class has no integer lift, in fact it is not a cocycle modulo 41; but the call reports nothing. It returns the angles `y`, `y + 1/4`, `y + 1/4`, `y + 1/2` (in turns): two neighbouring corners get the same angle and the corners 3 and 0, which are neighbours, are half a turn apart. Checking the cocycle condition makes no difference."
  },
  {
   "property": "C120",
   "status": "proved",
   "theorems": [
    "Dreimac.C120_nerve",
    "Dreimac.C120_winding",
    "Dreimac.C120_faithful_not_enough"
   ],
   "note": "C120_nerve: C120. Let the distances be the correctly rounded values of numbers that satisfy the triangle inequality. Then two balls of radius `r` with a common data point have centres at (rounded) distance less than `2 * r`: rounding the distances never leads to a data point that is in two balls whose centres are not joined by an edge. | C120_winding: C120 (winding numbers). C116 for a distance matrix with correctly rounded entries and the radius computed by `get_cover_radius` in floating point: along every closed path of covered data points the computed coordinates turn around the circle exactly as often as the cocycle says, if over each ball the lift changes by less than half a turn (less a rounding allowance) between consecutive points. | C120_faithful_not_enough: C120 needs correct rounding. If the distance of the landmarks is only accurate to less than one unit in the last place (as for a faithful, but not correctly rounded, computation), two balls with a common point may have centres that are not joined."
  },
  {
   "property": "C121",
   "status": "proved",
   "theorems": [
    "Dreimac.C121_five_classes_hang",
    "Dreimac.C121_every_call_ends",
    "Dreimac.C121_argument_errors"
   ],
   "note": "C121_five_classes_hang: C121 (five classes). C121 does not extend to five classes. For the five squares (`fvInput`) and what ripser returns (`fvRipser`, which satisfies its specification) the call that asks for all five classes never ends: the basis reduction runs forever (the model reports `outOfFuel` for every bound on the number of iterations). So it is after every history, for every `0 < perc \u2264 1`, both ranges, with and without the cocycle check, with an exact least squares solver and a correct Cholesky factorisation. The call that asks for four of these classes returns four coordinates. | C121_every_call_ends: C121. Every call of `get_coordinates` with at most four classes, on an object built by the constructor and after any history of calls, ends (for every percentage, NaN and infinities included, every bump function, solver and least squares routine): from some number of iterations on the result does not depend on the bound on the loop of `_lll` and is one of the documented outcomes (`CallOutcome`), where `dgm` is the diagram of dimension 1 that ripser returned. The size bound concerns only calls with the cocycle check. | C121_argument_errors: C121 (errors of the arguments). What the list of outcomes says about the arguments: the exceptions for disjoint and for too short lifetimes are raised exactly when a selected class dies before another one is born, respectively before the allowed range of another one begins; `IndexError` and `AssertionError` exactly when the first wrong index does not exist, respectively is not an integer."
  },
  {
   "property": "C122",
   "status": "proved",
   "theorems": [
    "Dreimac.C122_rows_exclude",
    "Dreimac.C122_lens_outcomes",
    "Dreimac.C122_projective_outcomes",
    "Dreimac.C122_complex_projective_outcomes"
   ],
   "note": "C122_rows_exclude: C122. The rows of the table exclude each other: two outcomes of the same call are the same error, or both arrays. | C122_lens_outcomes: C122, `LensCoords`. For every data set, every history of calls and all arguments, the call `get_coordinates(\u2026, complex_dim = n, \u2026)` ends as the table says, with target dimension `n - 1`: it raises an error exactly in the listed situations, and otherwise it returns one row per data point and `min(n, n_landmarks)` columns (for `n \u2265 0`). The number of iterations of the reduction loop is logarithmic in the number of dimensions to drop. | C122_projective_outcomes: C122, `ProjectiveCoords`. The same with target dimension `proj_dim`; in particular the prime 2 cocycles never make the powers of `-1` fail. | C122_complex_projective_outcomes: C122, `ComplexProjectiveCoords`. Without the cocycle check the same table holds for the classes of dimension 2; with the check, the only further outcome is `NameError`, for a class that is not too short (when the lifted class is not an integer cocycle, see C92)."
  },
  {
   "property": "C123",
   "status": "proved",
   "theorems": [
    "Dreimac.C123_same_calls",
    "Dreimac.C123_same_inner_products"
   ],
   "note": "C123_same_calls: C123 (same eigenvectors). On the same data, `LensCoords(X, \u2026, prime=2)` and `ProjectiveCoords(X, \u2026)` are the same: if the complex eigenvector routine returns for real matrices what the real one returns, then after corresponding calls, any call with `complex_dim = proj_dim + 1` returns the same array (as complex numbers) or raises the same exception, and leaves the same attributes. | C123_same_inner_products: C123 (full dimension). Without any assumption on how the two eigenvector routines are related: if the balls cover the data and nothing is lost (`complex_dim = n_landmarks`, `proj_dim = n_landmarks - 1`), both calls return arrays and the inner products of any two rows are the same, real, numbers, so that the two results differ by a unitary matrix; the reduction modes and the histories may be different."
  },
  {
   "property": "C124",
   "status": "partial",
   "theorems": [
    "Dreimac.C124_complex_projective_chern_partial",
    "Dreimac.C124_small_data"
   ],
   "note": "C124_complex_projective_chern_partial: C124. The whole of `ComplexProjectiveCoords(X, n_landmarks, prime = p).get_coordinates(perc, cocycle_idx = z, proj_dim = n_landmarks - 1, \u2026)` for a data set with distances `\u03b4`, as in C92, if the balls cover the data set, the lift `c` of the class is an integer cocycle and the class map has more than `10 ^ 6` bytes: the call returns an array of finite rows `y`, and over every closed surface of polygons of data points, each in the ball of a landmark and small compared with a bound `M` of the form `c - d\u03bd`, the phases of the products of the inner products of consecutive rows around the polygons add up to `2 \u03c0` times the value of `c` on the surface of landmarks. (So the first Chern number of the rows, as points of the complex projective space, over the surface is the value of the class.) | C124_small_data: C124 (small data sets). If the class map has at most `10 ^ 6` bytes, the returned rows do not know the class: over every closed surface of polygons of data points in balls, the product of the inner products of consecutive rows around each polygon is a positive real number, so all phases are zero."
  },
  {
   "property": "C125",
   "status": "proved",
   "theorems": [
    "Dreimac.C125_bump_functions",
    "Dreimac.C125_toroidal_lipschitz",
    "Dreimac.C125_lens_lipschitz",
    "Dreimac.C125_projective_lipschitz",
    "Dreimac.C125_complex_projective_lipschitz"
   ],
   "note": "C125_bump_functions: C125 (bump functions). The three bump functions of the library are Lipschitz. | C125_toroidal_lipschitz: C125 (toroidal and circular coordinates). In the situation of C90 (`ToroidalCoords` on a data set with distances `\u03b4`, any history of calls, any classes), for a Lipschitz bump function: if `M` bounds the form of the `q`-th coordinate on pairs of landmarks closer than `2 r`, then data points `i` and `j` in a common ball, whose distances to each landmark differ by at most `\u03b5`, have angles that differ, up to a multiple of `2 \u03c0`, by at most `4 \u03c0 M k \u039b \u03b5 / m`. | C125_lens_lipschitz: C125 (lens coordinates). In the situation of C91 with `complex_dim = n_landmarks = k`, if the balls cover the data set: the rows `y` of the returned array are unit vectors, and for data points `i` and `j` in a common ball, whose distances to each landmark differ by at most `\u03b5`, the absolute value of the inner product of their rows (the cosine of their distance in the projective space) is at least `1 - k \u039b \u03b5 / m`. | C125_projective_lipschitz: C125 (real projective coordinates). As for lens coordinates, with `proj_dim = n_landmarks - 1`. | C125_complex_projective_lipschitz: C125 (complex projective coordinates). In the situation of C92 with `proj_dim = n_landmarks - 1`, if the balls cover the data set and the lift is an integer cocycle: if `M` bounds the form `c - d\u03bd`, then for data points `i` and `j` in a common ball, whose distances to each landmark differ by at most `\u03b5`, the absolute value of the inner product of their rows is at least `(1 - k \u039b \u03b5 / m) cos(4 \u03c0 M k \u039b \u03b5 / m)`, as long as the angle is below `\u03c0 / 2` and the first factor is not negative."
  },
  {
   "property": "C126",
   "status": "proved",
   "theorems": [
    "Dreimac.C126_circular_degree",
    "Dreimac.C126_toroidal_degree"
   ],
   "note": "C126_circular_degree: C126 (two circular coordinates). Two calls of `get_coordinates` of one `CircularCoords` object on a data set with distances `\u03b4`, as in C89, for two classes `\u03be 0` and `\u03be 1` (with their own histories of calls, percentages, bump functions): on every closed oriented surface of data points with short edges, whose polygons are in balls, the polygons can be unrolled into the plane by the two angles, and their total signed area is `(2 \u03c0)\u00b2 n`, for the value `n` of the cup product of the integer cocycles `c 0` and `c 1` on the surface: an integer with `2 n` congruent modulo `p` to the value given by ripser's classes. | C126_toroidal_degree: C126 (toroidal coordinates). The same for two of the coordinates returned by one call of `ToroidalCoords.get_coordinates`, as in C90: the degree of the pair `q`, `q'` is the value of the cup product of the combined cocycles, a combination of the values of pairs of the selected classes with coefficients from the unimodular matrix `U`; with two selected classes it is, up to sign, the value `n` of the cup product of the two classes."
  },
  {
   "property": "C127",
   "status": "proved",
   "theorems": [
    "Dreimac.C127_toroidal_prime",
    "Dreimac.C127_complex_projective_prime"
   ],
   "note": "C127_toroidal_prime: C127 (circular and toroidal coordinates). Two objects for the same data and the same landmarks, with primes `p` and `p'`: if the selected classes have the same lifetimes and are reductions of the same integer cochains `c a`, with values smaller in absolute value than half of each prime, then after any histories of calls (different for the two objects) the calls return the same coordinates, or raise the same exception, provided that the check is off or the `c a` are integer cocycles at the threshold of the call; whatever the solvers are. | C127_complex_projective_prime: C127 (complex projective coordinates). The same for a class of dimension 2 and `ComplexProjectiveCoords`, where `c` is the integer 2-cochain that the arrays of the two classes list modulo `p` and `p'`."
  },
  {
   "property": "C128",
   "status": "proved",
   "theorems": [
    "Dreimac.C128_same_object",
    "Dreimac.C128_more_points"
   ],
   "note": "C128_same_object: C128 (same data points). A data set can be passed as a point cloud, as a square distance matrix or (with more data points than rows) as a rectangular one. If two arrays describe the same distances, and ripser finds the same classes for both, then each of the constructors returns the same object for both; so all later calls have the same results. | C128_more_points: C128 (more data points). If the second array describes more data points (rows of a rectangular distance matrix are longer), the circular and toroidal coordinates of the data points of the first array are the same, after any histories of calls, and the calls raise the same exceptions."
  },
  {
   "property": "C129",
   "status": "proved",
   "theorems": [
    "Dreimac.C129_circular_options",
    "Dreimac.C129_toroidal_options"
   ],
   "note": "C129_circular_options: C129 (one class). Two calls of `CircularCoords.get_coordinates` for the same class on the same object, after any histories of calls, with different percentages, ranges, bump functions and solvers. If the class is the reduction of an integer cocycle `c`, at the larger of the two thresholds, with values smaller than half of the prime, then both coordinates turn equally often, `c` on the path of landmarks, along every closed path of data points with small steps in the balls of the smaller radius. | C129_toroidal_options: C129 (several classes). Two calls of `ToroidalCoords.get_coordinates` for the same classes on the same object with different options (as above; the classes are reductions of integer cocycles `c a` with small values): there is a unimodular integer matrix, the same for all closed paths of data points with small steps, which turns the numbers of turns of the coordinates of one call into those of the other."
  },
  {
   "property": "C130",
   "status": "proved",
   "theorems": [
    "Dreimac.C130_projection",
    "Dreimac.C130_direct_finite",
    "Dreimac.C130_lens_reduced",
    "Dreimac.C130_projective_reduced"
   ],
   "note": "C130_projection: C130 (reduction). In every mode, a finite result of the dimensionality reduction of unit vectors `a` is one orthogonal projection to a subspace of the prescribed dimension, followed by scaling to length one (however many steps were made on the way), and inner products change at most by the product of the distances of the two vectors from this subspace. In mode \"direct\" the subspace is the one that captures most of the energy. | C130_direct_finite: C130 (finite entries). In mode \"direct\" the entries are finite, if no data point is orthogonal to a subspace that captures most of the energy. | C130_lens_reduced: C130 (lens). The whole of `LensCoords(X, n_landmarks, prime = p).get_coordinates(perc, cocycle_idx = z, complex_dim = D, \u2026)` for a data set with distances `\u03b4`, as in C91, with any `2 \u2264 D \u2264 n_landmarks`, if the balls cover the data set and the entries of the returned array are finite numbers `y`. Then row `i` of the array is the normalised orthogonal projection of the unreduced vector of data point `i` to a subspace of dimension `D` (in mode \"direct\" the one that captures most of the energy of the data); let `s i` be the length of this projection. Consider a closed path of data points with consecutive points in the ball of a landmark, such that for consecutive points the product of the parts lost by the projection is less than `sin (\u03c0 / p)` times the overlap of their weights. Then the value modulo `p` of ripser's class on the path of landmarks can be read off from the returned array: for consecutive rows take the multiple of `2 \u03c0 / p` that is nearest to the angle of their inner product (there is a unique one at distance less than `\u03c0 / p`) and add up. | C130_projective_reduced: C130 (real projective). As for lens coordinates, for `ProjectiveCoords` with `proj_dim = D - 1`, `2 \u2264 D \u2264 n_landmarks`: if for consecutive points the product of the lost parts is less than the overlap of their weights, the product of the inner products of consecutive rows along the closed path is positive if the class has an even value on the path of landmarks, and negative if the value is odd."
  },
  {
   "property": "C131",
   "status": "proved",
   "theorems": [
    "Dreimac.C131_complex_projective_reduced"
   ],
   "note": "C131_complex_projective_reduced: C131. The whole of `ComplexProjectiveCoords(X, n_landmarks, prime = p).get_coordinates(perc, cocycle_idx = z, proj_dim = q, \u2026)` with any `1 \u2264 q < n_landmarks`, for a data set with distances `\u03b4`, as in C92, if the balls cover the data set, the lift `c` of the class is an integer cocycle, the class map has more than `10 ^ 6` bytes and the entries of the returned array are finite numbers `y`. Row `i` of the array is the normalised orthogonal projection of the unreduced vector of data point `i` to a subspace of dimension `q + 1` (in mode \"direct\" the one that captures most of the energy of the data); let `s i` be the length of this projection. Consider a closed surface of polygons of data points, each in the ball of a landmark and small compared with a bound `M` of the form `c - d\u03bd`, and allow an error `\u03c6 d` (in turns) for each edge, so that the sum of the phases allowed around each polygon is less than half a turn. If the product of the lost parts of the ends of each edge is less than `sin (2 \u03c0 \u03c6 d)` times `cos (2 \u03c0 M * step)` times the overlap of their weights, then the phases of the products of the inner products of consecutive rows around the polygons add up to `2 \u03c0` times the value of `c` on the surface of landmarks."
  },
  {
   "property": "C132",
   "status": "proved",
   "theorems": [
    "Dreimac.C132_standard_range",
    "Dreimac.C132_circular_essential",
    "Dreimac.C132_toroidal_essential",
    "Dreimac.C132_lens_essential",
    "Dreimac.C132_projective_essential",
    "Dreimac.C132_lens_reduced",
    "Dreimac.C132_projective_reduced"
   ],
   "note": "C132_standard_range: C132: with `standard_range` and a positive percentage, the radius is larger than the birth, and the balls of landmarks that are joined at the birth contain each other's centres. | C132_circular_essential: C132 (circular). The whole of `CircularCoords(X, n_landmarks, prime = p).get_coordinates(perc, cocycle_idx = z, \u2026)` as in C89, for a class that ripser reports to be born at `b`, if the balls around landmarks that are joined at the birth have common data points and the class lifts: the coordinate returned is not the reduction modulo `2\u03c0` of a real-valued function of the data that changes by less than half a turn within each ball (provided the weights or the harmonic form are so small that the coordinate itself does). | C132_toroidal_essential: C132 (toroidal). The whole of `ToroidalCoords(\u2026).get_coordinates(perc, cocycle_idxs, \u2026)` as in C90, for classes that ripser reports to be independent at the latest of their births: no combination of the coordinates returned, with integer coefficients that are not all divisible by `p`, is the reduction of a real-valued function of the data that changes by less than half a turn within each ball. In particular no coordinate is. | C132_lens_essential: C132 (lens). The whole of `LensCoords(X, n_landmarks, prime = p).get_coordinates(perc, cocycle_idx = z, complex_dim = n_landmarks, \u2026)` as in C91 and C112, for a class that ripser reports to be born at `b`: the rows of the returned array, which are points of a lens space, cannot be multiplied by phases such that the inner products of the rows of all pairs of data points in a common ball become positive. | C132_projective_essential: C132 (real projective). The same for `ProjectiveCoords(X, n_landmarks).get_coordinates(perc, cocycle_idx = z, proj_dim = n_landmarks - 1, \u2026)`: one cannot choose signs of the rows of the returned array, which are points of a projective space, such that the inner products of the rows of all pairs of data points in a common ball become positive. | C132_lens_reduced: C132 (lens, any dimension). The whole of `LensCoords(X, n_landmarks, prime = p).get_coordinates(perc, cocycle_idx = z, complex_dim = D, \u2026)` as in C130, for a class that ripser reports to be born at `b`: if the reduction loses little within each ball, one cannot choose representatives of the points of the lens space (multiply the rows of the returned array by `p`-th roots of unity) such that the angles of the inner products of the rows of data points in a common ball become smaller than `\u03c0 / p`. | C132_projective_reduced: C132 (real projective, any dimension). The same for `ProjectiveCoords(X, n_landmarks).get_coordinates(perc, cocycle_idx = z, proj_dim = q, \u2026)` as in C130: if the reduction loses little within each ball, one cannot choose signs of the rows of the returned array, which are points of a projective space, such that the inner products of the rows of data points in a common ball become positive."
  },
  {
   "property": "C133",
   "status": "proved",
   "theorems": [
    "Dreimac.C133_geodesic_input",
    "Dreimac.C133_geodesic_circular",
    "Dreimac.C133_geodesic_toroidal",
    "Dreimac.C133_geodesic_projective"
   ],
   "note": "C133_geodesic_input: C133. If the neighbour graph is connected, the array returned by `landmark_geodesic_distance` consists of real numbers, it is a valid input of the constructors (with `distance_matrix=True`), and closed paths of neighbours, each edge in the geodesic ball of a landmark, are closed paths of data points for this input. | C133_geodesic_circular: C133. The pipeline for a point cloud `X` with geodesic distances: `landmark_geodesic_distance(X, n_landmarks, n_neighbors)` returns an array and a list of points; if the neighbour graph is connected, the array consists of real numbers and can be given to `CircularCoords(\u00b7, n_landmarks, distance_matrix=True, prime = p)`, whose coordinate for the column `j` belongs to the point `perm_all_points[j]`. Along every closed path of neighbours in the graph, where each edge is in the geodesic ball of a landmark and the coordinate changes little, it turns as often as the integer cocycle says, in particular at least once if the value of the class on the path is not divisible by `p`. | C133_geodesic_toroidal: C133. The same for `ToroidalCoords`: the winding numbers along a closed path of neighbours are those of the combinations of integer cocycles, and are not all zero if one of the classes has a nonzero value modulo `p` on the path. | C133_geodesic_projective: C133. The same for `ProjectiveCoords` with full dimension: along a closed path of neighbours the lines turn around as the class says."
  },
  {
   "property": "C134",
   "status": "partial",
   "theorems": [
    "Dreimac.C134_standard_range",
    "Dreimac.C134_complex_projective_essential_partial",
    "Dreimac.C134_small_data",
    "Dreimac.C134_complex_projective_reduced"
   ],
   "note": "C134_standard_range: C134: with `standard_range` and a positive percentage, the balls of three landmarks that are joined at the birth have a common data point. | C134_complex_projective_essential_partial: C134. The whole of `ComplexProjectiveCoords(X, n_landmarks, prime = p).get_coordinates(perc, cocycle_idx = z, proj_dim = n_landmarks - 1, \u2026)` as in C92 and C124, for a class that ripser reports to be born at `b`, if the balls around landmarks that are joined at the birth have common data points, the balls cover the data set, the lift `c` of the class is an integer cocycle and the class map has more than `10 ^ 6` bytes: if the weights change within each ball by at most `\u03b1 / M`, for a bound `M` of the form `c - d\u03bd` and `\u03b1 < 1 / 4`, the rows of the returned array, which are points of the complex projective space, cannot be multiplied by phases such that the inner products of the rows of all pairs of data points in a common ball have phases below `1 / 3 - \u03b1` turns. (For `\u03b1 \u2264 1 / 12` this means in particular: not such that these inner products have positive real parts.) | C134_small_data: C134 (small data sets). If the class map has at most `10 ^ 6` bytes, the inner products of the returned rows of all pairs of data points in a common ball are positive, whatever the class is. | C134_complex_projective_reduced: C134 (any dimension). The whole of `ComplexProjectiveCoords(X, n_landmarks, prime = p).get_coordinates(perc, cocycle_idx = z, proj_dim = q, \u2026)` with any `1 \u2264 q < n_landmarks` as in C131, for a class that ripser reports to be born at `b`, if the balls around landmarks that are joined at the birth have common data points, and the weights change within each ball by at most `\u03b1 / M`, `\u03b1 < 1 / 4`. If for an error `\u03b7` (in turns) the product of the lost parts of the vectors of any two data points in a common ball is less than `sin (2 \u03c0 \u03b7)` times `cos (2 \u03c0 M * step)` times the overlap of their weights, then the rows of the returned array cannot be multiplied by phases such that the inner products of the rows of all pairs of data points in a common ball have phases below `1 / 3 - (\u03b1 + \u03b7)` turns."
  },
  {
   "property": "C135",
   "status": "proved",
   "theorems": [
    "Dreimac.C135_hopf_area",
    "Dreimac.C135_complex_projective_sphere"
   ],
   "note": "C135_hopf_area: C135. Unit vectors `(y i 0, y i 1)` of `\u2102\u00b2`, one for each data point, and the points of the sphere that `hopf_map` makes of them. Consider a closed surface of triangles of data points. The total signed area of the triangles on the unit sphere is twice the sum of the phases of the products of the inner products of consecutive vectors around the triangles; and the squared absolute value of the inner product of two vectors is `(1 + h \u00b7 h') / 2` for the two points `h`, `h'`, so that it is zero iff the points are antipodal. | C135_complex_projective_sphere: C135. The whole of `ComplexProjectiveCoords(X, n_landmarks, prime = p).get_coordinates(perc, cocycle_idx = z, proj_dim = 1, \u2026)` as in C131, followed by `hopf_map`: for every closed surface of triangles of data points the total signed area of the triangles of points of the unit sphere is twice the sum of the phases of the products of the inner products of consecutive rows around the triangles. If the surface has the properties of C131 this is `4 \u03c0` times the value of the lift `c` of the class on the surface of landmarks: the map to the sphere covers it as many times as the class says."
  },
  {
   "property": "C136",
   "status": "proved",
   "theorems": [
    "Dreimac.C136_flat_call",
    "Dreimac.C136_complex_projective_call",
    "Dreimac.C136_lens_state",
    "Dreimac.C136_projective_state",
    "Dreimac.C136_complex_projective_state",
    "Dreimac.C136_cocycle_matrix",
    "Dreimac.C136_toroidal_call",
    "Dreimac.C136_toroidal_state"
   ],
   "note": "C136_flat_call: C136. `LensCoords` and `ProjectiveCoords`, one call on any object whatever. | C136_complex_projective_call: C136. `ComplexProjectiveCoords`, one call on any object whatever. | C136_lens_state: C136, `LensCoords`. For every data set: what all sequences of calls leave on the object. | C136_projective_state: C136, `ProjectiveCoords`. For every data set: what all sequences of calls leave on the object. | C136_complex_projective_state: C136, `ComplexProjectiveCoords`. For every data set: what all sequences of calls leave on the object. | C136_cocycle_matrix: C136, the one way in which the cocycle matrix can fail. A cocycle stored for the class that names a vertex which is not a landmark makes the call raise `IndexError`; otherwise the matrix exists. | C136_toroidal_call: C136. `ToroidalCoords` and `CircularCoords`, one call on any object whatever. | C136_toroidal_state: C136, `ToroidalCoords`. For every data set: what all sequences of calls leave on the object."
  },
  {
   "property": "C137",
   "status": "proved",
   "theorems": [
    "Dreimac.C137_toroidal_cocycles",
    "Dreimac.C137_complex_projective_cocycles",
    "Dreimac.C137_lens_projective_cocycles"
   ],
   "note": "C137_toroidal_cocycles: C137, circular and toroidal coordinates. After any sequence of calls the stored arrays of the classes that were named by a call whose classes exist and overlap have the values between `-p/2` and `p/2`, whether or not these calls failed later on; all other arrays, and all arrays of other dimensions, are unchanged. | C137_complex_projective_cocycles: C137, `ComplexProjectiveCoords`. After any sequence of calls the stored arrays of the classes of dimension 2 that were asked for by a call and are not too short have the values between `-p/2` and `p/2`, whether or not these calls failed later on; all other arrays are unchanged. | C137_lens_projective_cocycles: C137, `LensCoords` and `ProjectiveCoords`. No sequence of calls changes any stored cocycle (nor the intervals)."
  },
  {
   "property": "C138",
   "status": "proved",
   "theorems": [
    "Dreimac.C138_disc_angle",
    "Dreimac.C138_disc_loop",
    "Dreimac.C138_projective_plot"
   ],
   "note": "C138_disc_angle: The plot determines the lines up to a rotation: the angle between two of them can be read off. | C138_disc_loop: Along a closed sequence of unit vectors the product of the pairings of consecutive points of the plot is a positive multiple of the product of the inner products of consecutive vectors. | C138_projective_plot: C138. `ProjectiveCoords` with any `proj_dim = q`, followed by `get_stereo_proj_codim1` with any non-zero pole (or the eigenvector it chooses): under the condition of C130 on the lost parts, along every closed path of data points with consecutive points in the ball of a landmark the product of the pairings of consecutive points of the plot is positive if the class has an even value on the path of landmarks and negative if the value is odd; and the absolute value of the pairing of two points of the plot determines the angle between the lines."
  }
 ]
}