{"id": "C01", "title": "Simplex index is a bijection", "statement": "For a table built for at least n vertices and dimension d, the index returned for an increasing (d+1)-tuple of vertices below n is a bijection between those simplices and the integers 0..C(n,d+1)-1: two different simplices never share an index and no index is out of range or unused.", "quantifier": "all n, all d, all increasing tuples of vertices below n", "why_tests_cant": "a test checks five triangles on five vertices; the claim is about every number of vertices and every dimension at once", "anchors": ["dreimac/combinatorial.py:combinatorial_number_system_table", "dreimac/combinatorial.py:combinatorial_number_system_forward"]}
{"id": "C02", "title": "Specialised indexers agree with the general one and with colexicographic order", "statement": "The 1- and 2-dimensional indexers return exactly the number the general indexer returns for the same simplex, indices are ordered colexicographically, and the index of a simplex does not depend on how many vertices the table was built for.", "quantifier": "all tables, all simplices", "why_tests_cant": "agreement must hold for every simplex and every table size", "anchors": ["dreimac/combinatorial.py:combinatorial_number_system_d1_forward", "dreimac/combinatorial.py:combinatorial_number_system_d2_forward", "dreimac/combinatorial.py:combinatorial_number_system_forward"]}
{"id": "C03", "title": "Reported simplex count equals the number of simplices", "statement": "The number of simplices of dimension d on n vertices read from the table equals the number of increasing (d+1)-tuples below n (and n(n-1)/2 for edges), for every n up to the table size.", "quantifier": "all n and d covered by the table", "why_tests_cant": "tests sample a few sizes", "anchors": ["dreimac/combinatorial.py:number_of_simplices_of_dimension", "dreimac/utils.py:CohomologyUtils.make_delta0"]}
{"id": "C04", "title": "Parity computes the sign of every permutation", "statement": "CohomologyUtils.parity terminates on every permutation of 0..n-1 and returns +1 for even and -1 for odd permutations.", "quantifier": "all n and all permutations of n elements", "why_tests_cant": "n! inputs for every n", "anchors": ["dreimac/utils.py:CohomologyUtils.parity"]}
{"id": "C05", "title": "Ordering a simplex sorts it and reports its orientation", "statement": "order_simplex returns the vertices in increasing order, together with the sign of the permutation that sorts them: reordering the vertices of a simplex by a permutation leaves the sorted simplex unchanged and multiplies the reported sign by that permutation's sign.", "quantifier": "all simplices of all dimensions with distinct vertices, all reorderings", "why_tests_cant": "quantifies over all reorderings of all tuples", "anchors": ["dreimac/utils.py:CohomologyUtils.order_simplex"]}
{"id": "C06", "title": "Sparse to dense cocycle conversion is exact and orientation-correct", "statement": "The dense vector built from a sparse cocycle holds, at the index of each simplex listed, the listed value times the orientation sign of the listed vertex order, and 0 at every other index; it has one slot per simplex and every write is inside it; the result depends neither on the order of the rows nor on the orientation in which a simplex is listed (if its value is negated accordingly).", "quantifier": "all sparse cochains with pairwise different simplices, all dimensions and vertex counts", "why_tests_cant": "all row orders and all orientations", "anchors": ["dreimac/utils.py:CohomologyUtils.sparse_cocycle_to_vector"]}
{"id": "C07", "title": "Integer lift is the balanced representative mod the prime", "statement": "Lifting a cocycle with values 0..p-1 keeps the simplices, changes every value by a multiple of p, yields values v with -p/2 <= v < p/2 +1/2 (|v| <= (p-1)/2 for odd p), and is the only such choice for odd p.", "quantifier": "all primes (indeed all moduli p >= 2), all cocycles", "why_tests_cant": "all values and moduli", "anchors": ["dreimac/utils.py:CohomologyUtils.lift_to_integer_cocycle"]}
{"id": "C08", "title": "get_coordinates is repeatable although it mutates stored cocycles", "statement": "Lifting is idempotent, so after any history of get_coordinates calls (successful or failing, with any arguments) on a CircularCoords/ToroidalCoords object, a further call returns exactly what it would have returned as the first call on a fresh object, and the stored representative cocycles stay congruent modulo the prime to the ones the constructor computed.", "quantifier": "all objects, all finite histories of calls with arbitrary arguments", "why_tests_cant": "quantifies over every history of calls", "anchors": ["dreimac/toroidalcoords.py:ToroidalCoords.get_coordinates", "dreimac/utils.py:CohomologyUtils.lift_to_integer_cocycle", "dreimac/emcoords.py:EMCoords.get_representative_cocycle"]}
{"id": "C09", "title": "Representative cocycle values stay in the finite field", "statement": "get_representative_cocycle documents that the last column takes values in the finite field 0..prime-1; this should hold whenever it is called.", "quantifier": "all objects and all histories of calls", "why_tests_cant": "histories", "anchors": ["dreimac/emcoords.py:EMCoords.get_representative_cocycle", "dreimac/utils.py:CohomologyUtils.lift_to_integer_cocycle"]}
{"id": "C10", "title": "Cocycle reindexing inverts landmark selection", "statement": "After reindexing, a cocycle whose vertices were given as data-point indices of landmarks has its vertices renamed to the position of each landmark in the landmark list, for every list of pairwise different landmarks; values are untouched, and vertices that are not landmarks become -1.", "quantifier": "all N, all landmark lists without repetition, all cocycles", "why_tests_cant": "all permutations/subsets as landmark lists", "anchors": ["dreimac/utils.py:CohomologyUtils.reindex_cocycles"]}
{"id": "C11", "title": "Coboundary matrix delta0 computes differences along Rips edges", "statement": "make_delta0 applied to a function f on landmarks gives f(i)-f(j) at the index of every edge i<j shorter than the threshold and 0 at every other row.", "quantifier": "all distance matrices, thresholds and functions, on any number of landmarks whose simplex indices fit the 32-bit index arrays (n <= 65536; C16 treats the rest)", "why_tests_cant": "all matrices", "anchors": ["dreimac/utils.py:CohomologyUtils.make_delta0"]}
{"id": "C12", "title": "Coboundary matrix delta1 computes the 2-coboundary on Rips triangles", "statement": "make_delta1 applied to an edge cochain c gives c(ij)+c(jk)-c(ik) at the index of every triangle i<j<k all of whose sides are shorter than the threshold and 0 elsewhere.", "quantifier": "all distance matrices, thresholds and cochains, on any number of landmarks whose triangle indices fit the 32-bit index arrays (n <= 2345; C16 treats the rest)", "why_tests_cant": "all matrices", "anchors": ["dreimac/utils.py:CohomologyUtils.make_delta1"]}
{"id": "C13", "title": "Compact coboundary matrices have one row per existing simplex", "statement": "make_delta1_compact has exactly one row per Rips triangle and make_delta2_compact exactly one per Rips tetrahedron, each giving the coboundary of the cochain on that simplex; in particular a cochain is annihilated by the compact matrix iff its coboundary vanishes on every Rips simplex.", "quantifier": "all distance matrices, thresholds and cochains, on any number of landmarks whose simplex indices fit the 32-bit index arrays (n <= 2345 and at most 2^31 tetrahedra; C16 treats the rest)", "why_tests_cant": "all matrices", "anchors": ["dreimac/utils.py:CohomologyUtils.make_delta1_compact", "dreimac/utils.py:CohomologyUtils.make_delta2_compact"]}
{"id": "C14", "title": "Coboundary of a coboundary is zero", "statement": "For every distance matrix and threshold delta1 (delta0 f) = 0 for every function f on landmarks and delta2 (delta1 c) = 0 for every edge cochain c, so subtracting delta0 f (or delta1 c) never destroys the cocycle condition.", "quantifier": "all distance matrices, thresholds, functions and cochains, on any number of landmarks whose simplex indices fit the 32-bit index arrays (n <= 2345 and at most 2^31 tetrahedra; C16 treats the rest)", "why_tests_cant": "all matrices and vectors", "anchors": ["dreimac/utils.py:CohomologyUtils.make_delta0", "dreimac/utils.py:CohomologyUtils.make_delta1", "dreimac/utils.py:CohomologyUtils.make_delta1_compact", "dreimac/utils.py:CohomologyUtils.make_delta2_compact"]}
{"id": "C15", "title": "Compiled matrix builders never write outside their buffers", "statement": "Every store into the preallocated rows/columns/values buffers by the numba-compiled loops of make_delta0, make_delta1, make_delta1_compact, make_delta2_compact and _make_inner_product is in bounds (numba does not check), and every row and column index produced is inside the declared matrix shape.", "quantifier": "all distance matrices, thresholds and landmark counts", "why_tests_cant": "memory safety for every complex", "anchors": ["dreimac/utils.py:CohomologyUtils.make_delta0", "dreimac/utils.py:CohomologyUtils.make_delta1", "dreimac/utils.py:CohomologyUtils.make_delta1_compact", "dreimac/utils.py:CohomologyUtils.make_delta2_compact", "dreimac/toroidalcoords.py:_make_inner_product"]}
{"id": "C16", "title": "32-bit indices do not wrap", "statement": "Row and column indices stored as 32-bit integers by the matrix builders equal the intended indices for every number of landmarks.", "quantifier": "all landmark counts and complexes", "why_tests_cant": "the failing sizes need matrices of 10^9 entries", "anchors": ["dreimac/utils.py:CohomologyUtils.make_delta1", "dreimac/utils.py:CohomologyUtils.make_delta0"]}
{"id": "C17", "title": "One-cocycle check is exact", "statement": "_is_one_cocycle returns True iff c(ij)+c(jk)-c(ik)=0 on every triangle of the Rips complex, and otherwise its second value is the shortest side length occurring in a violating triangle.", "quantifier": "all distance matrices, thresholds, cochains", "why_tests_cant": "all complexes", "anchors": ["dreimac/toroidalcoords.py:_is_one_cocycle"]}
{"id": "C18", "title": "Two-cocycle check is exact", "statement": "_is_two_cocycle returns True iff the alternating sum over the faces of every Rips tetrahedron vanishes.", "quantifier": "all distance matrices, thresholds, cochains", "why_tests_cant": "all complexes", "anchors": ["dreimac/complexprojectivecoords.py:_is_two_cocycle"]}
{"id": "C19", "title": "A repaired cochain is an integer cocycle with the same reduction mod p", "statement": "If the lifted cochain is a cocycle modulo p and the integer program returns a solution that is within solver tolerances of being integral and feasible, the repaired cochain satisfies the integer cocycle condition exactly on the whole Rips complex and is congruent to the lifted one modulo p.", "quantifier": "all complexes, cochains, primes and all solver answers within tolerance", "why_tests_cant": "all solver answers", "anchors": ["dreimac/toroidalcoords.py:ToroidalCoords.get_coordinates", "dreimac/complexprojectivecoords.py:ComplexProjectiveCoords.get_coordinates"]}
{"id": "C20", "title": "'No integral lift' is raised only when there is none", "statement": "For a cochain that is a cocycle mod p, the integer program handed to the solver is feasible iff there is an integer cocycle congruent to it mod p; so with a correct solver the 'does not have an integral lift' error is raised exactly when no integral lift exists.", "quantifier": "all complexes, cochains, primes", "why_tests_cant": "all complexes", "anchors": ["dreimac/toroidalcoords.py:ToroidalCoords.get_coordinates"]}
{"id": "C21", "title": "Toroidal coordinates repair every selected class that needs it", "statement": "With check_cocycle_condition=True get_coordinates checks and, if necessary, fixes each of the selected classes, whatever the number of classes that need fixing.", "quantifier": "all selections of classes, all complexes", "why_tests_cant": "needs several simultaneously defective classes", "anchors": ["dreimac/toroidalcoords.py:ToroidalCoords.get_coordinates"]}
{"id": "C22", "title": "Complex projective coordinates repair a defective lift", "statement": "With check_cocycle_condition=True ComplexProjectiveCoords.get_coordinates fixes a lifted 2-cochain that is not an integer cocycle whenever an integral lift exists.", "quantifier": "all complexes and cochains", "why_tests_cant": "no test reaches the branch", "anchors": ["dreimac/complexprojectivecoords.py:ComplexProjectiveCoords.get_coordinates"]}
{"id": "C23", "title": "The integral-lift error names the offending class", "statement": "When get_coordinates raises 'The cohomology class at index i does not have an integral lift', i is the class index the user selected.", "quantifier": "all selections of classes", "why_tests_cant": "needs a class with torsion", "anchors": ["dreimac/toroidalcoords.py:ToroidalCoords.get_coordinates", "dreimac/circularcoords.py:CircularCoords.get_coordinates"]}
{"id": "C24", "title": "Cover radius interpolates inside the class's lifetime", "statement": "get_cover_radius raises exactly when the admissible interval is empty; otherwise for 0<=perc<=1 the Rips threshold lies in [start,end] (start = 2*birth in the standard range, birth otherwise), moves monotonically from start to end with perc, and the returned radius is half the threshold.", "quantifier": "all births, deaths, perc in [0,1], both range modes", "why_tests_cant": "continuum of parameters", "anchors": ["dreimac/emcoords.py:EMCoords.get_cover_radius"]}
{"id": "C25", "title": "Cover radius of an essential class", "statement": "For a class that never dies (death = inf) get_cover_radius returns a usable (finite) radius.", "quantifier": "all births and perc", "why_tests_cant": "needs infinite entries in a distance matrix", "anchors": ["dreimac/emcoords.py:EMCoords.get_cover_radius"]}
{"id": "C26", "title": "Persistence ordering", "statement": "After construction, the classes of each dimension >= 1 are ordered by non-increasing persistence, the reordering is a permutation of the computed classes, and the i-th cocycle still belongs to the i-th diagram point.", "quantifier": "all diagrams and cocycle lists", "why_tests_cant": "all orderings including ties and infinite classes", "anchors": ["dreimac/emcoords.py:EMCoords.__init__", "dreimac/emcoords.py:EMCoords.get_representative_cocycle"]}
{"id": "C27", "title": "Joint support of the selected classes", "statement": "ToroidalCoords.get_coordinates raises 'supports do not intersect' iff some selected class is born no earlier than some selected class dies; otherwise (and if no other error is raised) the threshold it uses is, for 0<perc<1, at least every selected birth and at most every selected death.", "quantifier": "all selections of classes and diagrams", "why_tests_cant": "all selections", "anchors": ["dreimac/toroidalcoords.py:ToroidalCoords.get_coordinates"]}
{"id": "C28", "title": "Partition of unity", "statement": "For each built-in bump function (linear, quadratic, exp), every landmark-to-data distance table and every radius: the weights of a covered data point are non-negative, sum to 1, and are positive exactly on the landmarks at distance less than the radius.", "quantifier": "all distance tables with non-negative entries, all radii", "why_tests_cant": "continuum of inputs", "anchors": ["dreimac/emcoords.py:EMCoords.get_covering_partition", "dreimac/utils.py:PartUnity.linear", "dreimac/utils.py:PartUnity.quadratic", "dreimac/utils.py:PartUnity.exp"]}
{"id": "C29", "title": "Uncovered points are reported and yield NaN, covered points do not", "statement": "get_covering_partition warns iff some data point is not within the radius of any landmark, with the exact number of such points, and the weights are NaN for exactly those points; the circular coordinate is NaN for exactly those points.", "quantifier": "all distance tables, radii, and cochains", "why_tests_cant": "all tables", "anchors": ["dreimac/emcoords.py:EMCoords.get_covering_partition", "dreimac/toroidalcoords.py:_sparse_integrate"]}
{"id": "C30", "title": "Ball index is the first covering landmark", "statement": "The ball index of a covered data point is the smallest landmark index whose ball contains it (0 for an uncovered point), so all smaller landmarks have weight 0 at that point.", "quantifier": "all distance tables and radii", "why_tests_cant": "all tables", "anchors": ["dreimac/emcoords.py:EMCoords.get_covering_partition"]}
{"id": "C31", "title": "Covered points get a coordinate for every numeric type of distance matrix", "statement": "A data point within the cover radius of a landmark gets finite weights summing to one even if the distance matrix is given with integer entries.", "quantifier": "all distance tables, including integer typed ones", "why_tests_cant": "tests use float matrices only", "anchors": ["dreimac/emcoords.py:EMCoords.get_covering_partition"]}
{"id": "C32", "title": "Reported coverage is the covering radius of the landmarks", "statement": "The coverage stored by the constructor is the largest distance from a data point to its nearest landmark.", "quantifier": "all data sets and landmark choices", "why_tests_cant": "never tested", "anchors": ["dreimac/emcoords.py:EMCoords.__init__"]}
{"id": "C33", "title": "Circular coordinates are angles", "statement": "Every circular/toroidal coordinate returned for a covered point lies in [0, 2*pi).", "quantifier": "all inputs", "why_tests_cant": "continuum", "anchors": ["dreimac/toroidalcoords.py:_sparse_integrate", "dreimac/toroidalcoords.py:_reduce_circular_coordinates", "dreimac/utils.py:CircleMapUtils.linear_combination"]}
{"id": "C34", "title": "Circular coordinates do not depend on the chosen cover element", "statement": "If the cochain is an integer cocycle on the Rips complex at the threshold and distances satisfy the triangle inequality, then evaluating the coordinate formula at a data point with any landmark ball containing the point gives the same angle as the one returned, for every output of the least-squares solver.", "quantifier": "all data, covers, integer cocycles, least squares outputs, all balls containing the point", "why_tests_cant": "all inputs and all internal choices", "anchors": ["dreimac/toroidalcoords.py:_sparse_integrate", "dreimac/toroidalcoords.py:_integrate_harmonic_representative", "dreimac/emcoords.py:EMCoords.get_covering_partition"]}
{"id": "C35", "title": "Circular coordinates represent the selected class", "statement": "On each landmark ball U_i the coordinate has a real-valued lift F_i, given by weights only, and on overlaps F_i - F_j is exactly the integer cocycle value on the edge ij: the pullback of the fundamental class of the circle is the selected (repaired) integer class.", "quantifier": "all data, covers, integer cocycles, least-squares outputs", "why_tests_cant": "the theorem of the paper, for every data set", "anchors": ["dreimac/toroidalcoords.py:_sparse_integrate", "docs/theory.rst"]}
{"id": "C36", "title": "One-sided edge matrix suffices", "statement": "Although the internal edge matrix is only filled for i<j, the returned coordinate equals the one computed with the full antisymmetric edge function, because the ball index is the first ball containing the point.", "quantifier": "all data and covers", "why_tests_cant": "cross-function invariant over all covers", "anchors": ["dreimac/toroidalcoords.py:_sparse_integrate", "dreimac/emcoords.py:EMCoords.get_covering_partition"]}
{"id": "C37", "title": "Circular coordinates are continuous", "statement": "If two data points lie in a common landmark ball, their angles differ (on the circle) by at most 2*pi * max|theta| * sum_t |weight difference|.", "quantifier": "all pairs of points in a common ball, all integer cocycles", "why_tests_cant": "continuum", "anchors": ["dreimac/toroidalcoords.py:_sparse_integrate"]}
{"id": "C38", "title": "Coordinates are independent of the cocycle representative up to rotation", "statement": "Two integer cocycles differing by an integer coboundary, with any exact least squares solutions, give the same harmonic representative, and coordinates that on each connected component of the Rips complex differ by a constant rotation.", "quantifier": "all cohomologous integer cocycles and all least-squares solutions", "why_tests_cant": "all representatives", "anchors": ["dreimac/toroidalcoords.py:_integrate_harmonic_representative", "docs/faq.rst"]}
{"id": "C39", "title": "Harmonic representative has minimal energy", "statement": "With an exact least squares solution, the harmonic representative has the least sum of squares over Rips edges among all real cochains cohomologous to the cocycle.", "quantifier": "all cochains and complexes", "why_tests_cant": "continuum", "anchors": ["dreimac/toroidalcoords.py:_integrate_harmonic_representative", "dreimac/toroidalcoords.py:_make_inner_product"]}
{"id": "C40", "title": "Lattice reduction is an integral change of basis", "statement": "At every iteration of _lll the change of basis matrix is integral with determinant +1 or -1 and the current basis is the input basis times it.", "quantifier": "all input bases, dimensions, numbers of iterations", "why_tests_cant": "all executions", "anchors": ["dreimac/toroidalcoords.py:_lll"]}
{"id": "C41", "title": "Toroidal coordinates carry the same information before and after reduction", "statement": "The toroidal coordinates returned are integer combinations of the individual circular coordinates by a unimodular matrix, and applying the inverse integer matrix recovers the individual coordinates exactly (mod 2*pi).", "quantifier": "all inputs, numbers of classes", "why_tests_cant": "all inputs", "anchors": ["dreimac/toroidalcoords.py:_reduce_circular_coordinates", "dreimac/utils.py:CircleMapUtils.linear_combination"]}
{"id": "C42", "title": "Lattice reduction of two classes terminates with a reduced basis", "statement": "For two classes with linearly independent harmonic representatives, _lll terminates and returns a basis with |mu| <= 1/2 that satisfies the Lovasz condition.", "quantifier": "all 2-dimensional lattices", "why_tests_cant": "termination", "anchors": ["dreimac/toroidalcoords.py:_lll"]}
{"id": "C43", "title": "Toroidal coordinates never have larger total Dirichlet energy", "statement": "The total energy (trace of the Gram matrix of the harmonic representatives) after lattice reduction is at most the one before.", "quantifier": "all Gram matrices, any number of classes", "why_tests_cant": "tests check four data sets", "anchors": ["dreimac/toroidalcoords.py:_reduce_circular_coordinates", "dreimac/toroidalcoords.py:_lll", "test/test_circular.py:test_toroidal_coordinates_less_energy"]}
{"id": "C44", "title": "Gram-Schmidt produces orthogonal vectors", "statement": "_gram_schmidt returns pairwise orthogonal columns spanning the same flags as its input.", "quantifier": "all bases of all dimensions", "why_tests_cant": "continuum", "anchors": ["dreimac/toroidalcoords.py:_gram_schmidt"]}
{"id": "C45", "title": "Stored Gram matrix is the Gram matrix of the returned coordinates", "statement": "After get_coordinates with several classes, the stored Gram matrix is the matrix of inner products of the harmonic representatives of the returned coordinates.", "quantifier": "all Gram matrices", "why_tests_cant": "tests only compare norms", "anchors": ["dreimac/toroidalcoords.py:ToroidalCoords.get_coordinates"]}
{"id": "C46", "title": "Single-class calls coincide", "statement": "CircularCoords.get_coordinates(cocycle_idx=i) returns what ToroidalCoords.get_coordinates(cocycle_idxs=[i]) returns as its only entry, and no lattice reduction is applied.", "quantifier": "all objects and arguments", "why_tests_cant": "all arguments", "anchors": ["dreimac/circularcoords.py:CircularCoords.get_coordinates", "dreimac/toroidalcoords.py:ToroidalCoords.get_coordinates"]}
{"id": "C47", "title": "Linear combinations of circle maps are well defined", "statement": "linear_combination returns values in [0,2*pi), depends only on the angles modulo 2*pi when the matrix is integral, composes (applying A then B equals applying BA), the 1-dimensional form equals the corresponding row, and mismatched shapes are rejected.", "quantifier": "all angle arrays and integer matrices", "why_tests_cant": "all matrices", "anchors": ["dreimac/utils.py:CircleMapUtils.linear_combination"]}
{"id": "C48", "title": "Lens class map is well defined", "statement": "For a cocycle mod p on the Rips complex the complex vector assigned to a data point using any landmark ball containing it is the returned one times a p-th root of unity, and has norm 1.", "quantifier": "all data, covers, mod-p cocycles, balls", "why_tests_cant": "all inputs", "anchors": ["dreimac/lenscoords.py:LensCoords.get_coordinates"]}
{"id": "C49", "title": "Real projective class map is well defined", "statement": "For a cocycle mod 2 the real vector assigned to a data point using any landmark ball containing it is plus or minus the returned one and has norm 1.", "quantifier": "all data, covers, mod-2 cocycles, balls", "why_tests_cant": "all inputs", "anchors": ["dreimac/projectivecoords.py:ProjectiveCoords.get_coordinates"]}
{"id": "C50", "title": "Complex projective class map is well defined", "statement": "For an integer 2-cocycle the complex vector assigned to a data point using any landmark ball containing it is a unit complex multiple of the returned one and has norm 1, for every output of the least-squares solver.", "quantifier": "all data, covers, integer 2-cocycles, least-squares outputs, balls", "why_tests_cant": "all inputs", "anchors": ["dreimac/complexprojectivecoords.py:_sparse_integrate"]}
{"id": "C51", "title": "Complex projective class map depends on the cocycle for every data size", "statement": "The class map returned by the compiled assembly step is the one accumulated in its array argument, whatever the size of the data.", "quantifier": "all data sizes", "why_tests_cant": "depends on numba's capture of closure arrays, which changes at 10^6 bytes; the tests only use larger arrays", "anchors": ["dreimac/complexprojectivecoords.py:_sparse_integrate"]}
{"id": "C52", "title": "Cochain tensors are antisymmetric", "statement": "The tensors built from 1- and 2-cochains satisfy t(s(i),s(j),..) = sign(s) t(i,j,..) for every permutation, agree with the cochain on increasing Rips simplices and vanish off the complex and on repeated vertices.", "quantifier": "all distance matrices, thresholds, cochains", "why_tests_cant": "all index triples", "anchors": ["dreimac/complexprojectivecoords.py:_one_cocycle_to_tensor", "dreimac/complexprojectivecoords.py:_two_cocycle_to_tensor"]}
{"id": "C53", "title": "Equivariant dimensionality reduction is equivariant", "statement": "Multiplying each data vector by a unit complex number multiplies the corresponding output of EquivariantPCA.ppca by the same number, in every mode, for every eigenvector routine.", "quantifier": "all data, phases, dimensions, modes, eigen-solvers", "why_tests_cant": "continuum", "anchors": ["dreimac/utils.py:EquivariantPCA.ppca"]}
{"id": "C54", "title": "Lens/projective coordinates are independent of the internal ball choice", "statement": "Replacing the first-ball choice by any other choice of containing balls, simultaneously for all data points, changes each output row of LensCoords (resp. ProjectiveCoords) only by a p-th root of unity (resp. sign): the output as a map into the lens/projective space is unchanged.", "quantifier": "all data, covers, cocycles, ball choices", "why_tests_cant": "all internal choices at once", "anchors": ["dreimac/lenscoords.py:LensCoords.get_coordinates", "dreimac/projectivecoords.py:ProjectiveCoords.get_coordinates", "dreimac/utils.py:EquivariantPCA.ppca"]}
{"id": "C55", "title": "Reduction output shape", "statement": "ppca returns one row per data point and proj_dim+1 columns in each mode.", "quantifier": "all input dimensions, target dimensions, modes", "why_tests_cant": "all sizes", "anchors": ["dreimac/utils.py:EquivariantPCA.ppca"]}
{"id": "C56", "title": "Reduction terminates and preserves unit norm", "statement": "ppca terminates in every mode and every returned data vector has norm 1 provided its projections never vanish.", "quantifier": "all data, eigen-solvers, modes", "why_tests_cant": "all sizes", "anchors": ["dreimac/utils.py:EquivariantPCA.ppca"]}
{"id": "C57", "title": "Variance is reported in every mode", "statement": "ppca returns the variance captured by each dimension, and the coordinates object stores it, in every reduction mode.", "quantifier": "all data and modes", "why_tests_cant": "the tests compare 0 >= 0 in the default mode", "anchors": ["dreimac/utils.py:EquivariantPCA.ppca", "dreimac/projectivecoords.py:ProjectiveCoords.get_coordinates"]}
{"id": "C58", "title": "One uncovered point does not spoil the others", "statement": "If some data point is not covered, the projective/lens coordinates of the other points are unaffected by it.", "quantifier": "all data with uncovered points", "why_tests_cant": "tests cover all points", "anchors": ["dreimac/lenscoords.py:LensCoords.get_coordinates", "dreimac/utils.py:EquivariantPCA.ppca"]}
{"id": "C59", "title": "Class selection is validated", "statement": "A class index that is not an integer or is out of range is rejected with an error and leaves the object unchanged; negative indices count from the least persistent class.", "quantifier": "all indices", "why_tests_cant": "all indices", "anchors": ["dreimac/emcoords.py:EMCoords.get_representative_cocycle"]}
{"id": "C60", "title": "Offsets form a rotation action", "statement": "CircleMapUtils.offset returns values in [0,2*pi) equal to a rotation; offsets add up, integer offsets do nothing to angles in [0,2*pi), and the offset -t undoes t.", "quantifier": "all angles and offsets", "why_tests_cant": "continuum", "anchors": ["dreimac/utils.py:CircleMapUtils.offset"]}
{"id": "C61", "title": "Centering is a rotation that brings a fullest bin to pi", "statement": "CircleMapUtils.center rotates all angles by one common amount, so that the left end of the first fullest of the 50 histogram bins goes to pi, and returns values in [0,2*pi); the points of that bin, at least a fiftieth of all points, land in [pi, pi + bin width]. If all angles are equal they all go to pi.", "quantifier": "all finite non-empty angle arrays", "why_tests_cant": "all data", "anchors": ["dreimac/utils.py:CircleMapUtils.center"]}
{"id": "C62", "title": "Sinebow colours are periodic and balanced", "statement": "Two angles get the same to_sinebow colour exactly if they are equal modulo 2*pi; the channels of x are sin^2(x/2), sin^2(x/2-pi/3), sin^2(x/2-2*pi/3), so they lie in [0,1] and always add up to 3/2.", "quantifier": "all angles", "why_tests_cant": "continuum", "anchors": ["dreimac/utils.py:CircleMapUtils.to_sinebow"]}
{"id": "C63", "title": "Level set colouring is periodic and bounded", "statement": "levelset_coloring values lie in [0,1], are 2*pi periodic, are exactly 0 or 1 without smoothing, alternating on the 2n equal arcs, with smoothing are the logistic function of the distance to the nearest boundary of a pair of arcs (so continuous, and 1/2 in the middle of each arc), and invalid numbers of level sets are rejected.", "quantifier": "all angles, numbers of level sets, smoothing values", "why_tests_cant": "continuum", "anchors": ["dreimac/utils.py:CircleMapUtils.levelset_coloring"]}
{"id": "C64", "title": "Hopf map is well defined and injective on the projective line", "statement": "hopf_map sends unit vectors of C^2 to unit vectors of R^3, and two unit vectors have the same image iff they differ by a unit complex factor.", "quantifier": "all unit vectors", "why_tests_cant": "continuum", "anchors": ["dreimac/utils.py:ProjectiveMapUtils.hopf_map"]}
{"id": "C65", "title": "Rotation matrix", "statement": "rotmat(a,b) is orthogonal with determinant 1 and takes the direction of a to the direction of b.", "quantifier": "all non-zero vectors of all dimensions", "why_tests_cant": "continuum", "anchors": ["dreimac/utils.py:ProjectiveMapUtils.rotmat"]}
{"id": "C66", "title": "Projective stereographic projection is well defined", "statement": "get_stereo_proj_codim1 gives antipodal points the same image unless they lie on the equator (where the images are antipodal), images lie in the closed unit disk, and distinct projective points off the equator have distinct images.", "quantifier": "all unit vectors and north poles of all dimensions", "why_tests_cant": "continuum", "anchors": ["dreimac/utils.py:ProjectiveMapUtils.get_stereo_proj_codim1"]}
{"id": "C67", "title": "Hemisphere projection is injective into two disjoint disks", "statement": "stereographic_projection_hemispheres sends the open lower hemisphere into the open unit disk at the origin, the closed upper one into the closed unit disk centred at 2.5 on the first axis, and is injective on the sphere.", "quantifier": "all unit vectors", "why_tests_cant": "continuum", "anchors": ["dreimac/utils.py:ProjectiveMapUtils.stereographic_projection_hemispheres"]}
{"id": "C68", "title": "Lens space to disk is well defined", "statement": "lens_3D_to_disk_3D sends unit vectors of C^2 into the closed unit ball and is invariant under multiplying both coordinates by a q-th root of unity.", "quantifier": "all unit vectors, all q", "why_tests_cant": "continuum", "anchors": ["dreimac/utils.py:LensMapUtils.lens_3D_to_disk_3D"]}
{"id": "C69", "title": "Circle to north pole", "statement": "circle_to_3dnorthpole returns a point of the closed unit disk (the input if it is in the disk, else its radial projection) and the unit vector of the upper hemisphere above it.", "quantifier": "all points of the plane", "why_tests_cant": "continuum", "anchors": ["dreimac/utils.py:ProjectiveMapUtils.circle_to_3dnorthpole"]}
{"id": "C70", "title": "Cross-similarity is Euclidean distance", "statement": "get_csm returns the Euclidean distance between each pair of rows; the clipping of negative entries never changes the exact value.", "quantifier": "all point clouds of all dimensions", "why_tests_cant": "continuum", "anchors": ["dreimac/utils.py:GeometryUtils.get_csm"]}
{"id": "C71", "title": "Projective arc length is a pseudometric on projective space", "statement": "For unit vectors get_csm_projarc lies in [0, pi/2], is symmetric, unchanged by flipping signs, zero exactly on projectively equal points, and satisfies the triangle inequality.", "quantifier": "all unit vectors", "why_tests_cant": "continuum", "anchors": ["dreimac/utils.py:GeometryUtils.get_csm_projarc", "dreimac/utils.py:GeometryExamples.rp2_metric"]}
{"id": "C72", "title": "Greedy permutation is a farthest point sample", "statement": "Each landmark after the first maximises the distance to the previous landmarks, insertion radii are those distances and do not increase, landmarks are pairwise at least the later one's insertion radius apart, and, for at least two landmarks, every point is within the last insertion radius of some landmark.", "quantifier": "all distance matrices and numbers of landmarks", "why_tests_cant": "all metrics", "anchors": ["dreimac/utils.py:GeometryUtils.get_greedy_perm_dm", "dreimac/utils.py:GeometryUtils.get_greedy_perm_pc", "dreimac/utils.py:GeometryUtils.landmark_geodesic_distance"]}
{"id": "C73", "title": "Greedy landmarks cover within twice the optimum", "statement": "The covering radius of the M greedy landmarks is at most twice the covering radius of any M centres.", "quantifier": "all finite pseudometrics and all M", "why_tests_cant": "optimisation over all centre sets", "anchors": ["dreimac/utils.py:GeometryUtils.get_greedy_perm_dm"]}
{"id": "C74", "title": "Greedy landmarks are distinct", "statement": "The greedy permutation of M <= N points contains no repeated index.", "quantifier": "all distance matrices, M <= N", "why_tests_cant": "fails only with duplicate points", "anchors": ["dreimac/utils.py:GeometryUtils.get_greedy_perm_dm", "dreimac/utils.py:GeometryUtils.get_greedy_perm_pc"]}
{"id": "C75", "title": "Point-cloud and distance-matrix sampling agree", "statement": "get_greedy_perm_pc on X returns the same permutation, insertion radii and landmark distances as get_greedy_perm_dm on the full matrix of pairwise distances.", "quantifier": "all point clouds, numbers of landmarks and distance functions", "why_tests_cant": "all inputs", "anchors": ["dreimac/utils.py:GeometryUtils.get_greedy_perm_pc", "dreimac/utils.py:GeometryUtils.get_greedy_perm_dm"]}
{"id": "C76", "title": "Geodesic landmark output format", "statement": "landmark_geodesic_distance returns a permutation of all points starting with the landmarks, and a matrix whose column j is the distance from the landmarks to the j-th point of that permutation; its leading square block is the landmark-to-landmark matrix that the coordinates constructors read.", "quantifier": "all geodesic distance functions, numbers of landmarks", "why_tests_cant": "all graphs", "anchors": ["dreimac/utils.py:GeometryUtils.landmark_geodesic_distance", "dreimac/emcoords.py:EMCoords.__init__"]}
{"id": "C77", "title": "Sampled surfaces satisfy their equations", "statement": "torus_3d points satisfy the torus equation, klein_bottle_4d points satisfy theirs, for all radii R >= r >= 0 and all random draws; for R > r > 0 distinct draws give distinct points, every point of the surface is the image of some draw, and the angle identifications are those of the torus and of the Klein bottle.", "quantifier": "all random draws and radii", "why_tests_cant": "all draws", "anchors": ["dreimac/utils.py:GeometryExamples.torus_3d", "dreimac/utils.py:GeometryExamples.klein_bottle_4d"]}
{"id": "C78", "title": "Patch examples honour the requested patch size", "statement": "moving_dot(s, sigma, dim) returns s^2 patches of dim*dim pixels and line_patches(dim, a, o, sigma) a*o patches of dim*dim pixels.", "quantifier": "all sizes", "why_tests_cant": "tests use the default dim", "anchors": ["dreimac/utils.py:GeometryExamples.moving_dot", "dreimac/utils.py:GeometryExamples.line_patches"]}
{"id": "C79", "title": "Moore space distance matrix is symmetric", "statement": "moore_space_distance_matrix returns a symmetric matrix with zero diagonal.", "quantifier": "all point samples of the disk and all primes", "why_tests_cant": "not tested", "anchors": ["dreimac/utils.py:GeometryExamples.moore_space_distance_matrix"]}
{"id": "C80", "title": "Patch grid", "statement": "plot_patches places N patches at N distinct integer grid positions of a square grid of side ceil(sqrt N), patch i shows row i, and it raises ValueError exactly when the array is empty or the number of pixels is not a square.", "quantifier": "all N", "why_tests_cant": "all N", "anchors": ["dreimac/plotting_utils.py:PlotUtils.plot_patches"]}
{"id": "C81", "title": "Equal axes", "statement": "set_axes_equal sets three limits of equal length, keeps each axis's midpoint and never cuts off a previously visible range.", "quantifier": "all axis limits", "why_tests_cant": "continuum", "anchors": ["dreimac/plotting_utils.py:PlotUtils.set_axes_equal"]}
{"id": "C82", "title": "Lattice reduction terminates", "statement": "_lll terminates on every linearly independent family, so get_coordinates with several (linearly independent) classes returns.", "quantifier": "all numbers of classes and all invertible matrices", "why_tests_cant": "termination for every input; the failing inputs are rare", "anchors": ["dreimac/toroidalcoords.py:_lll", "dreimac/toroidalcoords.py:_gram_schmidt"]}
{"id": "C83", "title": "Valid calls return", "statement": "get_coordinates on an object built from a float distance matrix, for one stored class whose lifetime contains the start of the range, returns one coordinate and stores the interpolated radius; with the cocycle check on, a correct complete solver and a mod-p cocycle, it returns iff the class has an integral lift and otherwise raises exactly the integral-lift error. For two classes with overlapping lifetimes whose lifts are cocycles the lattice reduction terminates and the call returns two coordinates, or raises LinAlgError from Cholesky.", "quantifier": "all well-formed objects, classes, percentages, bump functions, least-squares outputs", "why_tests_cant": "unbounded sizes, real parameters and unbounded loop", "anchors": ["dreimac/toroidalcoords.py:ToroidalCoords.get_coordinates"]}
{"id": "C84", "title": "Valid lens and projective calls return arrays of the stated shape", "statement": "LensCoords/ProjectiveCoords/ComplexProjectiveCoords.get_coordinates on an object built from a float distance matrix, for a stored class with values on pairs (triples) of landmarks whose lifetime contains the start of the range and an admissible dimension, returns one row per data point and complex_dim (resp. proj_dim + 1) columns, and stores the interpolated radius.", "quantifier": "all well-formed objects, classes, dimensions, percentages, bump functions, eigen-solver outputs", "why_tests_cant": "unbounded sizes, arbitrary solver output", "anchors": ["dreimac/lenscoords.py:LensCoords.get_coordinates", "dreimac/projectivecoords.py:ProjectiveCoords.get_coordinates", "dreimac/complexprojectivecoords.py:ComplexProjectiveCoords.get_coordinates"]}
{"id": "C85", "title": "Lens and projective results do not depend on earlier calls", "statement": "The result of get_coordinates (array or error) of LensCoords, ProjectiveCoords and ComplexProjectiveCoords is the same whatever sequence of calls, failing or not, was made before on the same object.", "quantifier": "all call histories", "why_tests_cant": "all histories", "anchors": ["dreimac/lenscoords.py:LensCoords.get_coordinates", "dreimac/projectivecoords.py:ProjectiveCoords.get_coordinates", "dreimac/complexprojectivecoords.py:ComplexProjectiveCoords.get_coordinates"]}
{"id": "C86", "title": "Other sampled shapes lie on or near their shapes", "statement": "sphere returns unit vectors; noisy_circle, bullseye and three_circles return points within half the noise, in each coordinate, of the stated circles; trefoil(noisy=True) points are at distance 1 from a closed curve that does not meet itself and trefoil(noisy=False) returns distinct points of the same tube; genus_two_surface points lie on two tori cut at x = 4.5, symmetrically.", "quantifier": "all random draws (except the exact centre, which divides by zero), noise sizes, numbers of samples, widths", "why_tests_cant": "all draws", "anchors": ["dreimac/utils.py:GeometryExamples.sphere", "dreimac/utils.py:GeometryExamples.noisy_circle", "dreimac/utils.py:GeometryExamples.bullseye", "dreimac/utils.py:GeometryExamples.three_circles", "dreimac/utils.py:GeometryExamples.trefoil", "dreimac/utils.py:GeometryExamples.genus_two_surface"]}
{"id": "C87", "title": "Colours and boundaries of plots", "statement": "plot_rp3_stereo maps the values of a non-constant function monotonically to colour indices 0..255, reaching both ends; plot_2sphere_boundary draws the unit circles at 0 and 2.5; plot_3sphere_mesh draws a closed mesh of points of the unit sphere from pole to pole.", "quantifier": "all functions and mesh sizes", "why_tests_cant": "all value vectors", "anchors": ["dreimac/plotting_utils.py:PlotUtils.plot_rp3_stereo", "dreimac/plotting_utils.py:PlotUtils.plot_2sphere_boundary", "dreimac/plotting_utils.py:PlotUtils.plot_3sphere_mesh"]}
{"id": "C88", "title": "Constructors store ripser's classes and the landmark distances", "statement": "For a data set (point cloud, square or rectangular float distance matrix) and a correct ripser, the constructors of all coordinates classes succeed for maxdim >= 1 and raise the documented assertion for maxdim = 0; the object stores the distances from the landmarks to the data points and, in every dimension from 1 to maxdim, ripser's classes by decreasing persistence, each with its cocycle, with landmark numbers as vertices and values in 0..p-1.", "quantifier": "all data sets, landmark counts, primes, ripser results", "why_tests_cant": "all data sets and all results of ripser", "anchors": ["dreimac/emcoords.py:EMCoords.__init__", "dreimac/toroidalcoords.py:ToroidalCoords.__init__", "dreimac/circularcoords.py:CircularCoords.__init__", "dreimac/lenscoords.py:LensCoords.__init__", "dreimac/projectivecoords.py:ProjectiveCoords.__init__", "dreimac/complexprojectivecoords.py:ComplexProjectiveCoords.__init__"]}
{"id": "C89", "title": "Circular coordinates, from the data to the angles", "statement": "CircularCoords(X, ...).get_coordinates(cocycle_idx=z), after any history of calls: if some integer cocycle on the landmarks at the prescribed threshold is congruent modulo the prime to the z-th most persistent class that ripser found, the call returns the circular coordinate of such a cocycle (undefined exactly at uncovered points; glued from real-valued lifts over the balls whose differences are the values of the cocycle; with the normalised bump weights and an energy-minimising potential); otherwise it raises the error about the missing lift.", "quantifier": "all data sets, ripser results, classes, histories, percentages, bump functions", "why_tests_cant": "all data sets and histories", "anchors": ["dreimac/circularcoords.py:CircularCoords.get_coordinates", "dreimac/emcoords.py:EMCoords.__init__", "dreimac/toroidalcoords.py:ToroidalCoords.get_coordinates"]}
{"id": "C90", "title": "Toroidal coordinates, from the data to the angles", "statement": "If ToroidalCoords(X, ...).get_coordinates(cocycle_idxs=[z_0, ...]) returns, it returns one coordinate per selected class, and these are the circular coordinates of the rows of U*c, where c_a is an integer cocycle congruent modulo the prime to the z_a-th most persistent class that ripser found, with an energy-minimising potential, and U is an integer matrix of determinant 1 or -1.", "quantifier": "all data sets, ripser results, selections of classes, histories, percentages, bump functions", "why_tests_cant": "all data sets and selections", "anchors": ["dreimac/toroidalcoords.py:ToroidalCoords.get_coordinates", "dreimac/emcoords.py:EMCoords.__init__"]}
{"id": "C91", "title": "Lens and projective coordinates, from the data to the array", "statement": "LensCoords(X, ...).get_coordinates and ProjectiveCoords(X, ...).get_coordinates with an admissible dimension return an array of the stated shape, the dimensionality reduction of the array with the entry sqrt(w_v(i)) * exp(2 pi i xi(u, v) / p) (respectively with the sign (-1)^xi(u, v)) for data point i in the ball of landmark u and landmark v, where xi is the z-th most persistent class that ripser found and w are the normalised bump weights; the rows have norm 1 and another choice of ball multiplies them by a p-th root of unity (a sign).", "quantifier": "all data sets, ripser results, classes, histories, dimensions, percentages, bump functions, eigen-solvers", "why_tests_cant": "all data sets and solver outputs", "anchors": ["dreimac/lenscoords.py:LensCoords.get_coordinates", "dreimac/projectivecoords.py:ProjectiveCoords.get_coordinates", "dreimac/emcoords.py:EMCoords.__init__"]}
{"id": "C92", "title": "Complex projective coordinates, from the data to the array", "statement": "ComplexProjectiveCoords(X, ...).get_coordinates with an admissible dimension, for the z-th most persistent class of dimension 2 that ripser found: with c its balanced integer lift, if the check is off or c is an integer cocycle at the threshold, the call returns an array of the stated shape, the dimensionality reduction of the array of phases of c - d(nu) (an energy-minimising representative) with weights sqrt(w_v(i)); if c is a cocycle the rows have norm 1 and another choice of ball multiplies them by a number of modulus 1. With the check on and c not a cocycle the call raises NameError. (For small data the code loses the phases, see C51.)", "quantifier": "all data sets, ripser results, classes, histories, dimensions, percentages, bump functions, solvers", "why_tests_cant": "all data sets and solver outputs", "anchors": ["dreimac/complexprojectivecoords.py:ComplexProjectiveCoords.get_coordinates", "dreimac/complexprojectivecoords.py:_sparse_integrate", "dreimac/emcoords.py:EMCoords.__init__"]}
{"id": "C93", "title": "Lookup tables are exact or not built", "statement": "combinatorial_number_system_table either raises OverflowError, exactly when some binomial coefficient C(i, l) of the table needs more than 63 bits, or stores every coefficient exactly; the tables of ToroidalCoords/CircularCoords exist for exactly up to 3810779 landmarks, the one of ComplexProjectiveCoords for exactly up to 121977; with such a table the compiled 64-bit index arithmetic never wraps around.", "quantifier": "all table sizes and all simplices", "why_tests_cant": "all sizes", "anchors": ["dreimac/combinatorial.py:combinatorial_number_system_table", "dreimac/combinatorial.py:combinatorial_number_system_forward"]}
{"id": "C94", "title": "Coordinates are local and follow the order of the data", "statement": "The circular and toroidal coordinates of a data point depend only on the landmarks and on its own distances to them: two data sets with the same landmarks give the same exception, or the same coordinates at any data points with equal distances to the landmarks (so duplicates agree, and adding, removing or reordering points that are not landmarks changes nothing else). Reordering the data reorders the lens, projective and complex projective coordinates and leaves variance, radii and exceptions unchanged.", "quantifier": "all pairs of data sets with equal landmarks, all reorderings, arguments and solver outputs", "why_tests_cant": "all data sets and permutations", "anchors": ["dreimac/toroidalcoords.py:ToroidalCoords.get_coordinates", "dreimac/lenscoords.py:LensCoords.get_coordinates", "dreimac/projectivecoords.py:ProjectiveCoords.get_coordinates", "dreimac/complexprojectivecoords.py:ComplexProjectiveCoords.get_coordinates", "dreimac/utils.py:EquivariantPCA.ppca"]}
{"id": "C95", "title": "Coordinates do not depend on the unit of length", "statement": "Multiplying the data by a positive constant (hence ripser's diagrams and distances) changes neither the exceptions of constructor and get_coordinates nor any coordinate of any class, for each of the bump functions linear, quadratic and exp and for every other unit-free bump function; the reported radii are multiplied by the constant.", "quantifier": "all positive factors, data sets, ripser results, arguments and solver outputs", "why_tests_cant": "all factors and data sets", "anchors": ["dreimac/emcoords.py:EMCoords.__init__", "dreimac/emcoords.py:EMCoords.get_cover_radius", "dreimac/emcoords.py:EMCoords.get_covering_partition", "dreimac/utils.py:PartUnity", "dreimac/toroidalcoords.py:ToroidalCoords.get_coordinates", "dreimac/lenscoords.py:LensCoords.get_coordinates", "dreimac/projectivecoords.py:ProjectiveCoords.get_coordinates", "dreimac/complexprojectivecoords.py:ComplexProjectiveCoords.get_coordinates"]}
{"id": "C96", "title": "Partition of unity in floating point", "statement": "In floating point arithmetic, whatever the order in which NumPy sums: the weights get_covering_partition returns for a data point are all nan, or all lie in [0, 1] and vanish for landmarks whose ball does not contain the point; if the sum does not overflow they add up to 1 with an error of at most (L + 1) * 2^-52 for L landmarks (float64).", "quantifier": "all distances, radii, numbers of landmarks, orders of summation, number formats, bump functions", "why_tests_cant": "all inputs and summation orders", "anchors": ["dreimac/emcoords.py:EMCoords.get_covering_partition", "dreimac/utils.py:PartUnity"]}
{"id": "C97", "title": "Covered points are not lost in floating point", "statement": "In floating point arithmetic the weights of a data point are nan exactly if its distance to every landmark is at least the radius, and the warning reports the number of these points. (True for the linear bump function; false for the quadratic and the exponential one, whose values underflow near the boundary of the balls.)", "quantifier": "all distances, radii, orders of summation, number formats", "why_tests_cant": "all inputs", "anchors": ["dreimac/emcoords.py:EMCoords.get_covering_partition", "dreimac/utils.py:PartUnity"]}
{"id": "C98", "title": "Circular coordinates are angles in floating point", "statement": "In floating point arithmetic the returned circular coordinates lie in the half-open interval from 0 to 2 pi and agree modulo 2 pi with the computed number of turns up to one rounding. (False for the half-open interval: 2 pi itself is returned for tiny negative numbers of turns.)", "quantifier": "all numbers of turns and number formats", "why_tests_cant": "all inputs", "anchors": ["dreimac/toroidalcoords.py:ToroidalCoords.get_coordinates", "dreimac/circularcoords.py:CircularCoords.get_coordinates"]}
{"id": "C99", "title": "The threshold lies in the class's lifetime in floating point", "statement": "In floating point arithmetic get_cover_radius raises its error exactly if the admissible interval is empty; perc=0 and perc=1 give exactly its end points and every other perc in [0, 1] a threshold inside the interval. (False for the last clause: the threshold may leave the interval by a unit in the last place; its error is at most three roundings.)", "quantifier": "all births, deaths, percentages, number formats", "why_tests_cant": "all inputs", "anchors": ["dreimac/emcoords.py:EMCoords.get_cover_radius"]}
{"id": "C100", "title": "Cross-similarity is a distance in floating point", "statement": "In floating point arithmetic get_csm returns a non-negative number, symmetric if the matrix product is, close to the Euclidean distance and zero exactly for equal points. (False for the last clause: the squares cancel, so distances of points far from the origin are lost and with fused multiply-add a point may have positive distance from itself.)", "quantifier": "all points, dimensions, orders of summation, matrix products", "why_tests_cant": "all inputs and summation orders", "anchors": ["dreimac/utils.py:GeometryUtils.get_csm"]}
{"id": "C101", "title": "The lattice reduction is integral in floating point", "statement": "In floating point arithmetic, whatever the rounding errors in the basis, the Gram-Schmidt vectors and the inner products: if the lattice reduction behind ToroidalCoords.get_coordinates returns, the column operations it performed form an integer matrix of determinant 1 or -1, and the returned change of basis is exactly this matrix as long as its integers (and those of the intermediate products) stay within 2^53 (float64).", "quantifier": "all bases, numbers of classes, numbers of iterations, inner product routines, number formats", "why_tests_cant": "all inputs and rounding errors", "anchors": ["dreimac/toroidalcoords.py:_lll", "dreimac/toroidalcoords.py:_gram_schmidt", "dreimac/toroidalcoords.py:ToroidalCoords.get_coordinates"]}
{"id": "C102", "title": "Cocycles are stored for the landmarks ripser used", "statement": "The constructors store, for every class, the cocycle that ripser computed on the landmarks: the value of ripser's cocycle on a simplex of landmark positions is the stored value on these positions, so that the stored class is a cocycle whenever ripser's is, and coordinates of a class that winds around the data wind around the circle. (True if the landmarks are different data points. False if a landmark is repeated, which happens for data with fewer different points than landmarks: ripser's cocycles come with data indices, all copies of a landmark are stored as the last copy, everything at the other copies is lost, the stored class can be a cocycle only if it is trivial around the repeated point, and get_coordinates silently returns coordinates that do not represent the class.)", "quantifier": "all landmark lists, cocycles of all dimensions; for the failure: all repeated landmarks, and a complete call", "why_tests_cant": "all cocycles and landmark lists", "anchors": ["dreimac/utils.py:CohomologyUtils.reindex_cocycles", "dreimac/emcoords.py:EMCoords.__init__", "dreimac/toroidalcoords.py:ToroidalCoords.get_coordinates"]}
{"id": "C103", "title": "The reduction loses nothing if nothing has to be lost", "statement": "If the data points passed to EquivariantPCA.ppca are unit vectors that lie in a linear subspace of dimension proj_dim + 1, the returned vectors are finite and have the same inner products as the data points, in each of the three modes: the configuration in projective space is only moved by a unitary map.", "quantifier": "all data sets of any size and dimension in a subspace, target dimensions, modes, correct eigenvector routines (real or complex)", "why_tests_cant": "all data sets and eigenvector routines", "anchors": ["dreimac/utils.py:EquivariantPCA.ppca"]}
{"id": "C104", "title": "The reduction keeps the principal components", "statement": "Every step of EquivariantPCA.ppca replaces the data by their components, scaled to length one, along orthonormal directions that capture as much of the energy (sum of squared lengths) of the data as any equally many orthonormal directions can; mode direct takes one step to proj_dim + 1 dimensions, one-by-one drops one dimension per step, exponential halves the number of superfluous dimensions per step and ends at proj_dim + 1 dimensions.", "quantifier": "all finite data sets, dimensions, target dimensions, modes, correct eigenvector routines (real or complex)", "why_tests_cant": "all data sets and all competing sets of directions", "anchors": ["dreimac/utils.py:EquivariantPCA.ppca"]}
{"id": "C105", "title": "Coordinates wind around the circle as the classes do", "statement": "Follow the returned circular coordinate along a closed path of data points, going the short way around the circle at each step, where consecutive points lie in the ball of a common landmark and their weights are close enough (always the case if the harmonic representative has values of absolute value at most 1/4): the total number of turns is an integer, it is the value of the integer cocycle on the closed path of these landmarks, and it is congruent modulo prime to the value of the chosen persistent class on this path; so a coordinate turns around along every loop the class detects. With several classes the k-th coordinate turns as the k-th row of the unimodular change of basis combines the classes.", "quantifier": "all checked calls, all closed paths of any length, all least squares solvers", "why_tests_cant": "all data sets, paths and solvers", "anchors": ["dreimac/toroidalcoords.py:ToroidalCoords.get_coordinates", "dreimac/circularcoords.py:CircularCoords.get_coordinates"]}
{"id": "C106", "title": "Operations on circle maps act on numbers of turns", "statement": "offset and center change the number of turns of a circle-valued map along no path of data points; the i-th map returned by linear_combination with an integer matrix turns as many times as the i-th row of the matrix combines the numbers of turns of the given maps, as long as the combined steps stay below half a turn.", "quantifier": "all maps, paths, offsets, integer matrices", "why_tests_cant": "all maps and paths", "anchors": ["dreimac/utils.py:CircleMapUtils.offset", "dreimac/utils.py:CircleMapUtils.center", "dreimac/utils.py:CircleMapUtils.linear_combination"]}
{"id": "C107", "title": "Lens and projective coordinates detect the class", "statement": "If the data points are all covered and the reduction loses nothing (complex_dim = n_landmarks, proj_dim = n_landmarks - 1, or the class map lies in a subspace of the target dimension), the returned rows know the class: along every closed path of data points with consecutive points in a common ball, the product of the inner products of consecutive rows of the lens coordinates is a positive multiple of exp(-2 pi i s / prime), and of the projective coordinates has the sign (-1)^s, where s is the value of the class on the closed path of landmarks; so the phase is trivial exactly along the paths the class does not detect.", "quantifier": "all calls with a correct eigenvector routine, all closed paths of any length, all modes", "why_tests_cant": "all data sets, paths and eigenvector routines", "anchors": ["dreimac/lenscoords.py:LensCoords.get_coordinates", "dreimac/projectivecoords.py:ProjectiveCoords.get_coordinates", "dreimac/utils.py:EquivariantPCA.ppca"]}
{"id": "C108", "title": "The consistency check leaves good classes alone", "statement": "If the selected classes are integer cocycles on the Rips complex at the threshold once their values are lifted to the symmetric range, the flag check_cocycle_condition of the circular, toroidal and complex projective get_coordinates changes neither the result nor the object, whatever the solvers do; without the flag the integer program solver is never used.", "quantifier": "all objects, classes, thresholds, solvers", "why_tests_cant": "all data sets and solvers", "anchors": ["dreimac/toroidalcoords.py:ToroidalCoords.get_coordinates", "dreimac/complexprojectivecoords.py:ComplexProjectiveCoords.get_coordinates"]}
{"id": "C109", "title": "The selected point is not modified", "statement": "circle_to_3dnorthpole leaves the array it is given as it is and accepts every point of the plane. (True for points of the closed unit disk. False outside: an array of floats is overwritten by the clipped point, and an array of integers raises a TypeError.)", "quantifier": "all points of the plane, arrays of floats and of integers", "why_tests_cant": "continuum", "anchors": ["dreimac/utils.py:ProjectiveMapUtils.circle_to_3dnorthpole"]}
{"id": "C110", "title": "Arrows show how the boundary circles are glued", "statement": "plot_2sphere_boundary draws arrows that leave the first disk at a point v of its boundary and enter the second disk at v + 2.5; this is how the images of stereographic_projection_hemispheres continue: points of the lower hemisphere that converge to a point of the equator have images that converge to a boundary point v of the first disk, and those of the upper hemisphere, like the point itself, to v + 2.5 in the second. plot_proj_boundary and plot_rp2_stereo draw a closed unit circle with a pair of antipodal arrows.", "quantifier": "all points of the equator, all centres, all dimensions, all approaching points", "why_tests_cant": "continuum", "anchors": ["dreimac/plotting_utils.py:PlotUtils.plot_2sphere_boundary", "dreimac/plotting_utils.py:PlotUtils.plot_proj_boundary", "dreimac/plotting_utils.py:PlotUtils.plot_rp2_stereo", "dreimac/utils.py:ProjectiveMapUtils.stereographic_projection_hemispheres"]}
{"id": "C111", "title": "The whole computation winds around as the data do", "statement": "For a data set given to the constructor of CircularCoords or ToroidalCoords and a class of ripser: along every closed path of data points with consecutive points in the ball of a landmark and small steps, the coordinate returned by get_coordinates turns around the circle an integer number of times, which is the value on the path of landmarks of an integer cocycle congruent to ripser's class modulo prime (the one with values between -prime/2 and prime/2, if there is one; for several classes, of a unimodular combination of such cocycles); so if the class does not vanish modulo prime on the path, some coordinate turns.", "quantifier": "all data sets, ripser results, histories of calls, parameters, closed paths of any length, solvers", "why_tests_cant": "all data sets, paths, histories and solvers", "anchors": ["dreimac/circularcoords.py:CircularCoords.__init__", "dreimac/circularcoords.py:CircularCoords.get_coordinates", "dreimac/toroidalcoords.py:ToroidalCoords.get_coordinates", "dreimac/utils.py:CohomologyUtils.lift_to_integer_cocycle"]}
{"id": "C112", "title": "The whole computation of lens and projective coordinates detects the class", "statement": "For a data set given to the constructor of LensCoords or ProjectiveCoords, a class of ripser, and the full dimension (complex_dim = n_landmarks, proj_dim = n_landmarks - 1), if the balls cover the data: along every closed path of data points with consecutive points in the ball of a landmark, the product of the inner products of consecutive returned rows is a positive multiple of exp(-2 pi i s / prime), or has the sign (-1)^s, where s is the value of ripser's class on the path of landmarks.", "quantifier": "all data sets, ripser results, histories of calls, parameters, closed paths of any length, correct eigenvector routines", "why_tests_cant": "all data sets, paths, histories and eigenvector routines", "anchors": ["dreimac/lenscoords.py:LensCoords.__init__", "dreimac/lenscoords.py:LensCoords.get_coordinates", "dreimac/projectivecoords.py:ProjectiveCoords.get_coordinates"]}
{"id": "C113", "title": "Geodesic landmark distances", "statement": "landmark_geodesic_distance(X, n_landmarks, n_neighbors) returns an array whose entry (i, j) is the length of a shortest chain from landmark i to the j-th point of the returned list in a graph joining every point to n_neighbors nearest points (infinite if there is none); the landmarks are a farthest point sample of these distances; the array is symmetric on landmarks, zero from a landmark to itself, satisfies the triangle inequality, is at least the Euclidean distance and equal to it if n_neighbors = n; the list contains every point, once if the points are different; the entries are finite exactly if the graph is connected, and then the array can be given to the constructors as a distance matrix.", "quantifier": "all point clouds, numbers of landmarks and of neighbours, choices among equally near neighbours", "why_tests_cant": "all point clouds", "anchors": ["dreimac/utils.py:GeometryUtils.landmark_geodesic_distance"]}
{"id": "C114", "title": "Operations on circle maps in floating point", "statement": "In floating point arithmetic offset, center and linear_combination return angles in the closed interval from 0 to 2 pi that agree modulo 2 pi with the exact rotation or integer combination up to a few roundings (explicit bound), as long as nothing overflows; the offset 0 and the rows of an identity matrix return the angle exactly; levelset_coloring returns exactly 0 or 1 without smoothing and numbers in [0, 1] with smoothing, and to_sinebow numbers in [0, 1].", "quantifier": "all machine numbers, number formats, orders of summation, numbers of maps", "why_tests_cant": "continuum of floats and all formats", "anchors": ["dreimac/utils.py:CircleMapUtils.offset", "dreimac/utils.py:CircleMapUtils.center", "dreimac/utils.py:CircleMapUtils.linear_combination", "dreimac/utils.py:CircleMapUtils.levelset_coloring", "dreimac/utils.py:CircleMapUtils.to_sinebow"]}
{"id": "C115", "title": "Circular coordinates in floating point represent the class", "statement": "In float64 arithmetic, with at most 65536 landmarks and any order of summation: the circular coordinate of a covered data point is finite and in the closed interval from 0 to 2 pi, and over the ball of every landmark l that contains the point it agrees, modulo a full turn, with the weighted mean of f_m + c(l, m) (the real-valued lift of the class over that ball; f the computed integral, c the integer cocycle, w the computed weights), up to (20 L + 51) A 2^-53 turns, where A bounds |f| and |c|. So rounding never changes the class the coordinates represent; no assumption is made on the accuracy of the least squares solver.", "quantifier": "all machine numbers as distances, integrals up to 2^900, cocycles, orders of summation, numbers of landmarks, bump functions", "why_tests_cant": "continuum of floats, all orders of summation", "anchors": ["dreimac/toroidalcoords.py:_sparse_integrate", "dreimac/toroidalcoords.py:_integrate_harmonic_representative", "dreimac/emcoords.py:EMCoords.get_covering_partition"]}
{"id": "C116", "title": "Winding numbers of circular coordinates in floating point", "statement": "In float64 arithmetic, with at most 65536 landmarks and any order of summation: along every closed path of covered data points, of any length, with consecutive points in the ball of a landmark, the circular coordinates as computed turn around the circle (measured by shortest steps between consecutive values) exactly as often as the integer cocycle says on the path of landmarks, if the lift over each ball changes by less than half a turn minus (20 L + 51) A 2^-52 between consecutive points. Rounding does not accumulate along the path.", "quantifier": "all machine numbers as distances, integrals up to 2^900, cocycles, orders of summation, numbers of landmarks, closed paths of any length", "why_tests_cant": "continuum of floats, all paths", "anchors": ["dreimac/toroidalcoords.py:_sparse_integrate", "dreimac/toroidalcoords.py:_integrate_harmonic_representative", "dreimac/emcoords.py:EMCoords.get_covering_partition"]}
{"id": "C117", "title": "The order of the classes does not matter", "statement": "Two calls of ToroidalCoords.get_coordinates with the same arguments except that cocycle_idxs lists the same classes in another order, with any calls in between: if both return, they use the same cover radius, and at every covered data point the coordinates returned by the second call are, modulo 2 pi, integer combinations of those returned by the first call, by one matrix of determinant 1 or -1. So the coordinate system does not depend on the order, only the basis does.", "quantifier": "all objects, permutations of the classes, histories of calls, solvers, bump functions positive on their support", "why_tests_cant": "all data, orders and histories", "anchors": ["dreimac/toroidalcoords.py:ToroidalCoords.get_coordinates", "dreimac/toroidalcoords.py:_gram_matrix", "dreimac/toroidalcoords.py:_lll"]}
{"id": "C118", "title": "Which data points get coordinates", "statement": "A coordinate returned by ToroidalCoords or CircularCoords, after any history, is NaN exactly at the data points at distance at least r from all landmarks (r the cover radius of the call). If every row of the input is a landmark and r > 0, or if the landmarks are a farthest point sample and the rows can be split into n_landmarks groups of diameter less than r, every row gets a coordinate in [0, 2 pi). Increasing perc never takes a coordinate away from a point.", "quantifier": "all data sets, histories of calls, parameters, solvers", "why_tests_cant": "all data sets", "anchors": ["dreimac/toroidalcoords.py:ToroidalCoords.get_coordinates", "dreimac/toroidalcoords.py:ToroidalCoords.__init__", "dreimac/circularcoords.py:CircularCoords.get_coordinates", "dreimac/emcoords.py:EMCoords.get_covering_partition", "dreimac/emcoords.py:EMCoords.get_cover_radius"]}
{"id": "C119", "title": "Coordinates survive ripser's single precision", "statement": "ripser stores the distances as 32-bit floats while the rest of the code works with 64-bit floats. Nevertheless, for every perc between 0 and 1, CircularCoords.get_coordinates returns the circular coordinate of an integer cocycle congruent to the class modulo the prime, or reports that there is none. (True if (1 - perc) times the lifetime exceeds 2^-24 of the death, in particular for the default values of perc and lifetimes of at least a millionth of the death; false at perc = 1, where the call can silently return the coordinates of a cochain that is not a cocycle.)", "quantifier": "all data sets, percentages, histories of calls, solvers", "why_tests_cant": "all data sets and roundings", "anchors": ["dreimac/circularcoords.py:CircularCoords.get_coordinates", "dreimac/toroidalcoords.py:ToroidalCoords.get_coordinates", "dreimac/emcoords.py:EMCoords.__init__", "dreimac/emcoords.py:EMCoords.get_cover_radius"]}
{"id": "C120", "title": "Rounded distances keep the cover compatible with the Rips complex", "statement": "If the entries of the distance matrix are the correctly rounded (float64) values of distances that satisfy the triangle inequality, and the radius and threshold are those computed by get_cover_radius in floating point (not tiny), then a data point in the balls of two landmarks always has the edge between them in the Rips complex that is used. Hence, along closed paths of data points, the computed circular coordinates turn around the circle exactly as often as the integer cocycle says, without further assumption on the rounding. (An error of less than one unit in the last place in the distance matrix is not enough.)", "quantifier": "all metrics, machine numbers, percentages, orders of summation, numbers of landmarks up to 65536, closed paths", "why_tests_cant": "continuum of floats", "anchors": ["dreimac/emcoords.py:EMCoords.get_cover_radius", "dreimac/emcoords.py:EMCoords.get_covering_partition", "dreimac/toroidalcoords.py:_sparse_integrate"]}
{"id": "C121", "title": "Every call with at most four classes ends", "statement": "ToroidalCoords.get_coordinates with at most four classes, on a constructed object and after any history of calls, ends: it returns one coordinate per selected class, or raises one of a fixed list of exceptions: AssertionError (an index that is not an integer), IndexError (an index out of range, negative indices counting from the end), ValueError (no class selected, or a second repaired cocycle), the two exceptions for classes with disjoint or too short lifetimes, no integral lift (only with check_cocycle_condition), LinAlgError (only with two or more classes). The exceptions for the arguments are raised exactly in these cases (the first wrong index decides; lifetimes are disjoint if a selected class dies before another is born). Nothing else is raised and the basis reduction does not run forever. With five classes there is a data set on which the call never ends.", "quantifier": "all data sets, histories of calls, parameters, solvers", "why_tests_cant": "termination for all inputs", "anchors": ["dreimac/toroidalcoords.py:ToroidalCoords.get_coordinates", "dreimac/toroidalcoords.py:ToroidalCoords.__init__", "dreimac/toroidalcoords.py:_lll"]}
{"id": "C122", "title": "How every call of the lens and projective classes ends", "statement": "get_coordinates of LensCoords, ProjectiveCoords and ComplexProjectiveCoords, on a constructed object, after any history of calls and for all arguments, ends according to a fixed table whose rows exclude each other: AssertionError for an index that is not an integer; IndexError for an index out of range (negative ones count from the end); the exception for a lifetime shorter than the allowed range; AssertionError for an unknown reduction mode; AttributeError in mode 'one-by-one' if the projective dimension is not between 1 and n_landmarks - 1; otherwise an array with one row per data point and min(n_landmarks, wanted number) columns, silently fewer than asked if there are too few landmarks. ComplexProjectiveCoords with the cocycle check can in addition raise NameError. Nothing else is raised and no call runs forever.", "quantifier": "all data sets, histories of calls, arguments (classes, percentages, dimensions including negative ones, modes, bump functions), eigensolvers, least squares and integer solvers", "why_tests_cant": "all inputs and histories", "anchors": ["dreimac/lenscoords.py:LensCoords.get_coordinates", "dreimac/projectivecoords.py:ProjectiveCoords.get_coordinates", "dreimac/complexprojectivecoords.py:ComplexProjectiveCoords.get_coordinates", "dreimac/utils.py:EquivariantPCA.ppca"]}
{"id": "C123", "title": "Lens coordinates modulo 2 are real projective coordinates", "statement": "LensCoords(X, prime=2) and ProjectiveCoords(X) on the same data are interchangeable: if the eigenvector routine returns for a real matrix the same eigenvectors whether it is stored as real or as complex array, then after corresponding calls any call with complex_dim = proj_dim + 1 returns the same array (with zero imaginary parts) or raises the same exception, and leaves the same attributes. Whatever eigenvectors the routines choose, if the balls cover the data and no dimension is lost (complex_dim = n_landmarks), the inner products of any two rows are the same real numbers, also with different reduction modes.", "quantifier": "all data sets, histories of calls, arguments, eigensolvers", "why_tests_cant": "all inputs and histories", "anchors": ["dreimac/lenscoords.py:LensCoords.get_coordinates", "dreimac/lenscoords.py:LensCoords.__init__", "dreimac/projectivecoords.py:ProjectiveCoords.get_coordinates", "dreimac/projectivecoords.py:ProjectiveCoords.__init__", "dreimac/utils.py:EquivariantPCA.ppca"]}
{"id": "C124", "title": "Complex projective coordinates detect the class", "statement": "For ComplexProjectiveCoords(X, n_landmarks).get_coordinates with proj_dim = n_landmarks - 1, if the balls cover the data and the lift of the class is an integer cocycle: take any closed oriented surface cut into polygons with a data point at each corner, each polygon in the ball of one landmark and small (the weights change by less than 1/(4M) along each edge and 1/(2M) around each polygon, where M bounds the form c - d(nu)). The product of the inner products of consecutive returned rows around a polygon does not depend on the representatives of the points of the projective space; the phases of these products add up to 2 pi times the value of the class on the surface of landmarks (the first Chern number of the coordinates is the value of the class).", "quantifier": "all data sets, histories of calls, percentages, bump functions, modes, exact eigensolvers, least squares solvers, closed surfaces of any genus and size", "why_tests_cant": "continuum of data, all surfaces", "anchors": ["dreimac/complexprojectivecoords.py:ComplexProjectiveCoords.get_coordinates", "dreimac/complexprojectivecoords.py:_sparse_integrate", "dreimac/utils.py:EquivariantPCA.ppca"]}
{"id": "C125", "title": "Nearby data points have nearby coordinates", "statement": "All coordinate maps are Lipschitz in the data. The three bump functions of the library are Lipschitz (constants 1, 2r and 8/r). For two data points in the ball of one landmark whose distances to every landmark differ by at most eps, with bump value m at the first point, Lipschitz constant L and k landmarks: the circular or toroidal angles differ by at most 4 pi M k L eps / m up to whole turns, where M bounds the form of the coordinate on the edges of the Rips complex; with no dimension lost in the reduction, the rows of lens and real projective coordinates are unit vectors whose inner product has absolute value at least 1 - k L eps / m, and those of complex projective coordinates at least (1 - k L eps / m) cos(4 pi M k L eps / m). In particular the choice of the ball a point is assigned to causes no jump.", "quantifier": "all data sets, pairs of data points, histories of calls, percentages, Lipschitz bump functions, classes, modes, solvers", "why_tests_cant": "continuum of data", "anchors": ["dreimac/toroidalcoords.py:ToroidalCoords.get_coordinates", "dreimac/lenscoords.py:LensCoords.get_coordinates", "dreimac/projectivecoords.py:ProjectiveCoords.get_coordinates", "dreimac/complexprojectivecoords.py:ComplexProjectiveCoords.get_coordinates", "dreimac/emcoords.py:EMCoords.get_covering_partition", "dreimac/utils.py:PartUnity"]}
{"id": "C126", "title": "Pairs of circular coordinates have the degree of the cup product", "statement": "Take two circular coordinates of the same data (two calls of CircularCoords.get_coordinates on one object for two classes, or two coordinates of one call of ToroidalCoords.get_coordinates): they map a closed oriented surface, cut into polygons with a data point at each corner, each polygon in the ball of one landmark and with short edges, to the torus. The angles of each polygon can be unrolled to real numbers that differ by less than pi along each edge, and however this is done the total signed area of the polygons in the plane is (2 pi)^2 times an integer n, the degree: 2n is twice the value of the cup product of the integer cocycles on the surface of landmarks, congruent modulo the prime to the value given by ripser's classes. For one toroidal call with two classes, the degree is that of the selected classes up to the sign of the unimodular change of basis.", "quantifier": "all data sets, histories of calls, percentages, bump functions, integer and least squares solvers, closed surfaces of any genus and size", "why_tests_cant": "continuum of data, all surfaces", "anchors": ["dreimac/circularcoords.py:CircularCoords.get_coordinates", "dreimac/toroidalcoords.py:ToroidalCoords.get_coordinates", "dreimac/toroidalcoords.py:_sparse_integrate", "dreimac/toroidalcoords.py:_lll"]}
{"id": "C127", "title": "The prime does not matter", "statement": "If the classes selected in two objects, built for the same data and landmarks with different primes, have the same lifetimes and their representatives are the reductions of the same integer cochains with values smaller than half of each prime, then circular and toroidal coordinates are identical: the two calls return the same arrays, or raise the same exception, after any histories of calls and for all solvers, if the cocycle check is off or the cochains are integer cocycles at the threshold of the call. The same for ComplexProjectiveCoords and classes of dimension 2.", "quantifier": "all data sets, pairs of primes, histories of calls, percentages, bump functions, solvers, reduction modes", "why_tests_cant": "all data sets and primes", "anchors": ["dreimac/toroidalcoords.py:ToroidalCoords.get_coordinates", "dreimac/toroidalcoords.py:ToroidalCoords.__init__", "dreimac/complexprojectivecoords.py:ComplexProjectiveCoords.get_coordinates", "dreimac/utils.py:lift_to_integer_cocycle"]}
{"id": "C128", "title": "How the data are passed does not matter", "statement": "A data set can be passed as a point cloud, as a square distance matrix, or as a rectangular one with more data points than rows. If two arrays describe the same distances (and ripser, which sees only the distances between rows, finds the same landmarks, diagrams and cocycles), the constructors of all classes return the same object, so that all later calls have the same results. If the second array only adds columns (data points that cannot be landmarks), circular and toroidal coordinates of the old data points do not change, and the calls raise the same exceptions, after any histories of calls.", "quantifier": "all data sets, formats, histories of calls, arguments, solvers", "why_tests_cant": "all data sets and formats", "anchors": ["dreimac/emcoords.py:EMCoords.__init__", "dreimac/toroidalcoords.py:ToroidalCoords.get_coordinates", "dreimac/lenscoords.py:LensCoords.__init__", "dreimac/projectivecoords.py:ProjectiveCoords.__init__", "dreimac/complexprojectivecoords.py:ComplexProjectiveCoords.__init__"]}
{"id": "C129", "title": "Winding numbers do not depend on the options", "statement": "Two calls for the same class on the same CircularCoords object, with different percentages, ranges, bump functions, least squares and integer solvers and after different histories: if the class is the reduction of an integer cocycle (at the larger of the two thresholds) with values smaller than half of the prime, then along every closed path of data points with small steps in balls of the smaller radius both coordinates turn equally often, namely by the value of that cocycle on the path of landmarks. For ToroidalCoords with several classes the numbers of turns of the two calls are related by one unimodular integer matrix, the same for all paths.", "quantifier": "all data sets, histories of calls, pairs of options, solvers, closed paths of any length", "why_tests_cant": "continuum of data and options", "anchors": ["dreimac/circularcoords.py:CircularCoords.get_coordinates", "dreimac/toroidalcoords.py:ToroidalCoords.get_coordinates", "dreimac/emcoords.py:EMCoords.get_cover_radius"]}
{"id": "C130", "title": "Reduced coordinates still detect the class if the reduction loses little", "statement": "A finite result of the dimensionality reduction of unit vectors, in every mode, is one orthogonal projection to a subspace of the prescribed dimension followed by scaling to length one (in mode direct, to a subspace that captures most of the energy), and inner products change at most by the product of the distances of the two vectors from that subspace. Hence LensCoords and ProjectiveCoords with fewer dimensions than landmarks still determine the class: along a closed path of data points with consecutive points in the ball of a landmark, if the product of the lost parts of consecutive points is less than sin(pi/p) times the overlap of their weights, then the nearest multiples of 2 pi/p to the angles of the inner products of consecutive rows are unique and add up to minus the value of the class on the path modulo p; for real projective coordinates, if the lost product is less than the overlap, the sign of the product of the inner products is the parity of the value of the class.", "quantifier": "all data sets, histories of calls, dimensions, percentages, bump functions, modes, exact eigensolvers, closed paths of any length", "why_tests_cant": "continuum of data, all dimensions", "anchors": ["dreimac/lenscoords.py:LensCoords.get_coordinates", "dreimac/projectivecoords.py:ProjectiveCoords.get_coordinates", "dreimac/utils.py:EquivariantPCA.ppca"]}
{"id": "C131", "title": "Complex projective coordinates of fewer dimensions detect the class if the reduction loses little", "statement": "For ComplexProjectiveCoords.get_coordinates with any proj_dim, if the balls cover the data, the lift of the class is an integer cocycle, the class map has more than 10^6 bytes (see C51, C124) and the returned entries are finite: the rows are the normalised orthogonal projections of the unreduced vectors to a subspace. For every closed oriented surface cut into polygons of data points, each in the ball of a landmark: if on each edge the product of the lost parts of its ends is less than sin(2 pi phi) cos(2 pi M step) times the overlap of the weights, where M bounds the form c - d(nu), step is the change of the weights along the edge and phi an allowed error in turns, and M step + phi adds up to less than half a turn around each polygon, then the phases of the products of the inner products of consecutive returned rows around the polygons add up to 2 pi times the value of the class on the surface. (E.g. the degree of the map of a sphere to CP^1 for proj_dim = 1.)", "quantifier": "all data sets, histories of calls, dimensions, percentages, bump functions, modes, exact eigensolvers, least squares solvers, closed surfaces of any genus and size", "why_tests_cant": "continuum of data, all surfaces and dimensions", "anchors": ["dreimac/complexprojectivecoords.py:ComplexProjectiveCoords.get_coordinates", "dreimac/complexprojectivecoords.py:_sparse_integrate", "dreimac/utils.py:EquivariantPCA.ppca"]}
{"id": "C132", "title": "A class that does not vanish gives coordinates that cannot be unrolled", "statement": "If ripser reports that a class is born at b (its cocycle is not a difference modulo the prime on the Rips complex at b), the balls around landmarks joined at b have common data points (automatic for standard_range and a positive percentage), and the class lifts, then the circular coordinate is not the reduction modulo 2 pi of a real-valued function of the data that changes by less than half a turn within each ball, although the coordinate itself lifts to such a function on each ball. For toroidal coordinates of independent classes, no integer combination of the coordinates with coefficients not all divisible by the prime is such a reduction. For LensCoords and ProjectiveCoords with as many dimensions as landmarks the rows cannot be multiplied by phases (signs) such that all inner products of rows of data points in a common ball become positive. With fewer dimensions, if the product of the lost parts of the vectors of data points in a common ball is smaller than sin(pi/p) times (for real projective coordinates, smaller than) the overlap of their weights: the rows of LensCoords cannot be multiplied by p-th roots of unity such that the angles of these inner products become smaller than pi/p, and the signs of the rows of ProjectiveCoords cannot be chosen such that they become positive.", "quantifier": "all data sets, primes, histories of calls, percentages, ranges, bump functions, integer and least squares solvers, real-valued functions", "why_tests_cant": "continuum of data and functions", "anchors": ["dreimac/circularcoords.py:CircularCoords.get_coordinates", "dreimac/toroidalcoords.py:ToroidalCoords.get_coordinates", "dreimac/lenscoords.py:LensCoords.get_coordinates", "dreimac/projectivecoords.py:ProjectiveCoords.get_coordinates"]}
{"id": "C133", "title": "Coordinates of geodesic distances wind along the neighbour graph", "statement": "GeometryUtils.landmark_geodesic_distance(X, n_landmarks, n_neighbors) returns an array of geodesic distances and a list of points. If the neighbour graph is connected, the array is a valid input of CircularCoords, ToroidalCoords and ProjectiveCoords with distance_matrix=True, and the j-th coordinate belongs to the j-th listed point. Along every closed path of neighbours in the graph, where each edge is inside the geodesic ball of a landmark and the coordinate changes little from point to point, the circular coordinate turns as often as an integer cocycle congruent to the class says, in particular it turns if the value of the class on the path is not zero modulo the prime; toroidal coordinates turn as the combinations say, and the lines of ProjectiveCoords turn around exactly if the class is odd on the path.", "quantifier": "all point clouds, numbers of landmarks and neighbours, primes, histories of calls, percentages, bump functions, exact solvers, closed paths of neighbours of any length", "why_tests_cant": "continuum of point clouds, paths of any length", "anchors": ["dreimac/utils.py:GeometryUtils.landmark_geodesic_distance", "dreimac/circularcoords.py:CircularCoords.get_coordinates", "dreimac/toroidalcoords.py:ToroidalCoords.get_coordinates", "dreimac/projectivecoords.py:ProjectiveCoords.get_coordinates"]}
{"id": "C134", "title": "Complex projective coordinates of a class that does not vanish are not a choice of vectors", "statement": "If ripser reports that a class of dimension 2 is born at b (its cocycle is not a coboundary modulo the prime on the Rips complex at b), the balls around three landmarks joined at b have common data points (automatic for standard_range and a positive percentage), the balls cover the data, the lift of the class is an integer cocycle, the class map has more than 10^6 bytes (see C51, C124), proj_dim is n_landmarks - 1, and the weights change within each ball by at most alpha / M, where M bounds the form c - d(nu) and alpha < 1/4, then the returned rows, which are points of CP^n, cannot be multiplied by phases such that the inner products of the rows of all pairs of data points in a common ball have phases below 1/3 - alpha turns. With any smaller proj_dim the same holds for phases below 1/3 - (alpha + eta) turns, if the product of the lost parts of the vectors of two data points in a common ball is less than sin(2 pi eta) cos(2 pi M step) times the overlap of their weights. For at most 10^6 bytes and proj_dim = n_landmarks - 1 all these inner products are positive, whatever the class is.", "quantifier": "all data sets, primes, histories of calls, percentages, ranges, bump functions, modes, exact eigensolvers, least squares solvers, choices of phases", "why_tests_cant": "continuum of data and phases", "anchors": ["dreimac/complexprojectivecoords.py:ComplexProjectiveCoords.get_coordinates", "dreimac/complexprojectivecoords.py:_sparse_integrate", "dreimac/utils.py:EquivariantPCA.ppca"]}
{"id": "C135", "title": "Complex projective coordinates on the sphere: the Hopf map sees the class", "statement": "For unit vectors of C^2, the signed areas of the triangles of the unit sphere whose corners are the hopf_map images of the corners of a closed triangulated surface of data points add up to twice the sum of the phases of the products of the inner products around the triangles, and two images are antipodal iff the vectors are orthogonal. Hence for ComplexProjectiveCoords.get_coordinates with proj_dim = 1 followed by hopf_map, under the conditions of C131, the total signed area is 4 pi times the value of the class on the surface: the data surface covers the sphere as many times as the class says.", "quantifier": "all data sets, histories of calls, percentages, bump functions, modes, exact eigensolvers, triangulated closed surfaces of any genus and size", "why_tests_cant": "continuum of data, all surfaces", "anchors": ["dreimac/complexprojectivecoords.py:ComplexProjectiveCoords.get_coordinates", "dreimac/utils.py:ProjectiveMapUtils.hopf_map"]}
{"id": "C136", "title": "What a call leaves on the object", "statement": "LensCoords, ProjectiveCoords and ComplexProjectiveCoords: a new object has no stored cover radius and no variances. After any sequence of calls the stored radius and threshold are those of the last call that asked for an existing class that is long enough, whether or not this call failed later on; a call that names no class or one that is too short raises and changes nothing on the object; a call that raises does not change the stored variances; a call that returns stores variances, the same as if it had been the first call; distances, landmarks, diagrams, prime and lookup table never change. CircularCoords and ToroidalCoords: the stored radius is that of the last call whose classes exist, are alive together and are long enough, whether or not it failed later; all other calls raise and leave the radius; the stored Gram matrices and change of basis are changed by no call that raises or returns one coordinate, and are present after a call that returns several.", "quantifier": "all data sets, all sequences of calls with all arguments", "why_tests_cant": "all histories", "anchors": ["dreimac/lenscoords.py:LensCoords.get_coordinates", "dreimac/projectivecoords.py:ProjectiveCoords.get_coordinates", "dreimac/complexprojectivecoords.py:ComplexProjectiveCoords.get_coordinates", "dreimac/toroidalcoords.py:ToroidalCoords.get_coordinates", "dreimac/circularcoords.py:CircularCoords.get_coordinates", "dreimac/emcoords.py:EMCoords.get_cover_radius"]}
{"id": "C137", "title": "Which stored cocycles a call rewrites", "statement": "After any sequence of calls on a CircularCoords or ToroidalCoords object, the stored array cocycles_[1] of a class has the values of ripser's cocycle between 0 and p-1, unless some call named the class (by a positive or negative index) together with classes that exist and have a common part of their lifetimes: then it has the congruent values between -p/2 and p/2, even if that call raised an exception later on. On a ComplexProjectiveCoords object the same holds for cocycles_[2] and calls for a class that is not too short. All other arrays, and all arrays of LensCoords and ProjectiveCoords objects, never change.", "quantifier": "all data sets, primes, sequences of calls with all arguments, solvers", "why_tests_cant": "all histories", "anchors": ["dreimac/toroidalcoords.py:ToroidalCoords.get_coordinates", "dreimac/complexprojectivecoords.py:ComplexProjectiveCoords.get_coordinates", "dreimac/lenscoords.py:LensCoords.get_coordinates", "dreimac/projectivecoords.py:ProjectiveCoords.get_coordinates", "dreimac/utils.py:lift_to_integer_cocycle"]}
{"id": "C138", "title": "The plot of projective coordinates sees the class", "statement": "get_stereo_proj_codim1 plots the rows of ProjectiveCoords.get_coordinates (any proj_dim q) as points of the closed unit disc of dimension q. For all non-zero poles (given, or the eigenvector chosen): for two points P, Q of the plot let <P, Q> = 4 P.Q + (1 - |P|^2)(1 - |Q|^2). Its absolute value is (1 + |P|^2)(1 + |Q|^2) times the absolute value of the inner product of the two rows, so that the angle between the lines can be read off the plot. Along a closed path of data points with consecutive points in the ball of a landmark, such that the product of the parts of consecutive points lost in the reduction is less than the overlap of their weights, the product of the values <P, Q> of consecutive points of the plot is positive if the class has an even value on the path of landmarks, and negative if the value is odd.", "quantifier": "all data sets, histories of calls, dimensions, percentages, bump functions, modes, exact eigensolvers, poles, closed paths of any length", "why_tests_cant": "continuum of data and poles, paths of any length", "anchors": ["dreimac/utils.py:ProjectiveMapUtils.get_stereo_proj_codim1", "dreimac/utils.py:ProjectiveMapUtils.rotmat", "dreimac/projectivecoords.py:ProjectiveCoords.get_coordinates"]}
