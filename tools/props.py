#!/usr/bin/env python3
"""Single source for properties.jsonl (run from /verif: python3 tools/props.py)."""
import json, os
P = []
def p(title, statement, quantifier, why, *anchors):
    P.append(dict(id="C%02d" % (len(P) + 1), title=title, statement=statement,
                  quantifier=quantifier, why_tests_cant=why, anchors=list(anchors)))
C = "dreimac/combinatorial.py"; U = "dreimac/utils.py"; E = "dreimac/emcoords.py"
T = "dreimac/toroidalcoords.py"; CC = "dreimac/circularcoords.py"; L = "dreimac/lenscoords.py"
R = "dreimac/projectivecoords.py"; X = "dreimac/complexprojectivecoords.py"; PL = "dreimac/plotting_utils.py"

# --- combinatorial number system -------------------------------------------------------------
p("Simplex index is a bijection",
  "For a table built for at least n vertices and dimension d, the index returned for an increasing (d+1)-tuple of vertices below n is a bijection between those simplices and the integers 0..C(n,d+1)-1: two different simplices never share an index and no index is out of range or unused.",
  "all n, all d, all increasing tuples of vertices below n",
  "a test checks five triangles on five vertices; the claim is about every number of vertices and every dimension at once",
  C+":combinatorial_number_system_table", C+":combinatorial_number_system_forward")
p("Specialised indexers agree with the general one and with colexicographic order",
  "The 1- and 2-dimensional indexers return exactly the number the general indexer returns for the same simplex, indices are ordered colexicographically, and the index of a simplex does not depend on how many vertices the table was built for.",
  "all tables, all simplices", "agreement must hold for every simplex and every table size",
  C+":combinatorial_number_system_d1_forward", C+":combinatorial_number_system_d2_forward", C+":combinatorial_number_system_forward")
p("Reported simplex count equals the number of simplices",
  "The number of simplices of dimension d on n vertices read from the table equals the number of increasing (d+1)-tuples below n (and n(n-1)/2 for edges), for every n up to the table size.",
  "all n and d covered by the table", "tests sample a few sizes", C+":number_of_simplices_of_dimension", U+":CohomologyUtils.make_delta0")
# --- orientation -----------------------------------------------------------------------------
p("Parity computes the sign of every permutation",
  "CohomologyUtils.parity terminates on every permutation of 0..n-1 and returns +1 for even and -1 for odd permutations.",
  "all n and all permutations of n elements", "n! inputs for every n", U+":CohomologyUtils.parity")
p("Ordering a simplex sorts it and reports its orientation",
  "order_simplex returns the vertices in increasing order, together with the sign of the permutation that sorts them: reordering the vertices of a simplex by a permutation leaves the sorted simplex unchanged and multiplies the reported sign by that permutation's sign.",
  "all simplices of all dimensions with distinct vertices, all reorderings", "quantifies over all reorderings of all tuples", U+":CohomologyUtils.order_simplex")
p("Sparse to dense cocycle conversion is exact and orientation-correct",
  "The dense vector built from a sparse cocycle holds, at the index of each simplex listed, the listed value times the orientation sign of the listed vertex order, and 0 at every other index; it has one slot per simplex and every write is inside it; the result depends neither on the order of the rows nor on the orientation in which a simplex is listed (if its value is negated accordingly).",
  "all sparse cochains with pairwise different simplices, all dimensions and vertex counts", "all row orders and all orientations", U+":CohomologyUtils.sparse_cocycle_to_vector")
# --- lifting / reindexing ---------------------------------------------------------------------
p("Integer lift is the balanced representative mod the prime",
  "Lifting a cocycle with values 0..p-1 keeps the simplices, changes every value by a multiple of p, yields values v with -p/2 <= v < p/2 +1/2 (|v| <= (p-1)/2 for odd p), and is the only such choice for odd p.",
  "all primes (indeed all moduli p >= 2), all cocycles", "all values and moduli", U+":CohomologyUtils.lift_to_integer_cocycle")
p("get_coordinates is repeatable although it mutates stored cocycles",
  "Lifting is idempotent, so after any history of get_coordinates calls (successful or failing, with any arguments) on a CircularCoords/ToroidalCoords object, a further call returns exactly what it would have returned as the first call on a fresh object, and the stored representative cocycles stay congruent modulo the prime to the ones the constructor computed.",
  "all objects, all finite histories of calls with arbitrary arguments", "quantifies over every history of calls",
  T+":ToroidalCoords.get_coordinates", U+":CohomologyUtils.lift_to_integer_cocycle", E+":EMCoords.get_representative_cocycle")
p("Representative cocycle values stay in the finite field",
  "get_representative_cocycle documents that the last column takes values in the finite field 0..prime-1; this should hold whenever it is called.",
  "all objects and all histories of calls", "histories", E+":EMCoords.get_representative_cocycle", U+":CohomologyUtils.lift_to_integer_cocycle")
p("Cocycle reindexing inverts landmark selection",
  "After reindexing, a cocycle whose vertices were given as data-point indices of landmarks has its vertices renamed to the position of each landmark in the landmark list, for every list of pairwise different landmarks; values are untouched, and vertices that are not landmarks become -1.",
  "all N, all landmark lists without repetition, all cocycles", "all permutations/subsets as landmark lists", U+":CohomologyUtils.reindex_cocycles")
# --- coboundaries ------------------------------------------------------------------------------
p("Coboundary matrix delta0 computes differences along Rips edges",
  "make_delta0 applied to a function f on landmarks gives f(i)-f(j) at the index of every edge i<j shorter than the threshold and 0 at every other row.",
  "all distance matrices, thresholds and functions, on any number of landmarks whose simplex indices fit the 32-bit index arrays (n <= 65536; C16 treats the rest)", "all matrices", U+":CohomologyUtils.make_delta0")
p("Coboundary matrix delta1 computes the 2-coboundary on Rips triangles",
  "make_delta1 applied to an edge cochain c gives c(ij)+c(jk)-c(ik) at the index of every triangle i<j<k all of whose sides are shorter than the threshold and 0 elsewhere.",
  "all distance matrices, thresholds and cochains, on any number of landmarks whose triangle indices fit the 32-bit index arrays (n <= 2345; C16 treats the rest)", "all matrices", U+":CohomologyUtils.make_delta1")
p("Compact coboundary matrices have one row per existing simplex",
  "make_delta1_compact has exactly one row per Rips triangle and make_delta2_compact exactly one per Rips tetrahedron, each giving the coboundary of the cochain on that simplex; in particular a cochain is annihilated by the compact matrix iff its coboundary vanishes on every Rips simplex.",
  "all distance matrices, thresholds and cochains, on any number of landmarks whose simplex indices fit the 32-bit index arrays (n <= 2345 and at most 2^31 tetrahedra; C16 treats the rest)", "all matrices", U+":CohomologyUtils.make_delta1_compact", U+":CohomologyUtils.make_delta2_compact")
p("Coboundary of a coboundary is zero",
  "For every distance matrix and threshold delta1 (delta0 f) = 0 for every function f on landmarks and delta2 (delta1 c) = 0 for every edge cochain c, so subtracting delta0 f (or delta1 c) never destroys the cocycle condition.",
  "all distance matrices, thresholds, functions and cochains, on any number of landmarks whose simplex indices fit the 32-bit index arrays (n <= 2345 and at most 2^31 tetrahedra; C16 treats the rest)", "all matrices and vectors", U+":CohomologyUtils.make_delta0", U+":CohomologyUtils.make_delta1", U+":CohomologyUtils.make_delta1_compact", U+":CohomologyUtils.make_delta2_compact")
p("Compiled matrix builders never write outside their buffers",
  "Every store into the preallocated rows/columns/values buffers by the numba-compiled loops of make_delta0, make_delta1, make_delta1_compact, make_delta2_compact and _make_inner_product is in bounds (numba does not check), and every row and column index produced is inside the declared matrix shape.",
  "all distance matrices, thresholds and landmark counts", "memory safety for every complex",
  U+":CohomologyUtils.make_delta0", U+":CohomologyUtils.make_delta1", U+":CohomologyUtils.make_delta1_compact", U+":CohomologyUtils.make_delta2_compact", T+":_make_inner_product")
p("32-bit indices do not wrap",
  "Row and column indices stored as 32-bit integers by the matrix builders equal the intended indices for every number of landmarks.",
  "all landmark counts and complexes", "the failing sizes need matrices of 10^9 entries", U+":CohomologyUtils.make_delta1", U+":CohomologyUtils.make_delta0")
p("One-cocycle check is exact",
  "_is_one_cocycle returns True iff c(ij)+c(jk)-c(ik)=0 on every triangle of the Rips complex, and otherwise its second value is the shortest side length occurring in a violating triangle.",
  "all distance matrices, thresholds, cochains", "all complexes", T+":_is_one_cocycle")
p("Two-cocycle check is exact",
  "_is_two_cocycle returns True iff the alternating sum over the faces of every Rips tetrahedron vanishes.",
  "all distance matrices, thresholds, cochains", "all complexes", X+":_is_two_cocycle")
# --- fixing ------------------------------------------------------------------------------------
p("A repaired cochain is an integer cocycle with the same reduction mod p",
  "If the lifted cochain is a cocycle modulo p and the integer program returns a solution that is within solver tolerances of being integral and feasible, the repaired cochain satisfies the integer cocycle condition exactly on the whole Rips complex and is congruent to the lifted one modulo p.",
  "all complexes, cochains, primes and all solver answers within tolerance", "all solver answers", T+":ToroidalCoords.get_coordinates", X+":ComplexProjectiveCoords.get_coordinates")
p("'No integral lift' is raised only when there is none",
  "For a cochain that is a cocycle mod p, the integer program handed to the solver is feasible iff there is an integer cocycle congruent to it mod p; so with a correct solver the 'does not have an integral lift' error is raised exactly when no integral lift exists.",
  "all complexes, cochains, primes", "all complexes", T+":ToroidalCoords.get_coordinates")
p("Toroidal coordinates repair every selected class that needs it",
  "With check_cocycle_condition=True get_coordinates checks and, if necessary, fixes each of the selected classes, whatever the number of classes that need fixing.",
  "all selections of classes, all complexes", "needs several simultaneously defective classes", T+":ToroidalCoords.get_coordinates")
p("Complex projective coordinates repair a defective lift",
  "With check_cocycle_condition=True ComplexProjectiveCoords.get_coordinates fixes a lifted 2-cochain that is not an integer cocycle whenever an integral lift exists.",
  "all complexes and cochains", "no test reaches the branch", X+":ComplexProjectiveCoords.get_coordinates")
p("The integral-lift error names the offending class",
  "When get_coordinates raises 'The cohomology class at index i does not have an integral lift', i is the class index the user selected.",
  "all selections of classes", "needs a class with torsion", T+":ToroidalCoords.get_coordinates", CC+":CircularCoords.get_coordinates")
# --- EMCoords ----------------------------------------------------------------------------------
p("Cover radius interpolates inside the class's lifetime",
  "get_cover_radius raises exactly when the admissible interval is empty; otherwise for 0<=perc<=1 the Rips threshold lies in [start,end] (start = 2*birth in the standard range, birth otherwise), moves monotonically from start to end with perc, and the returned radius is half the threshold.",
  "all births, deaths, perc in [0,1], both range modes", "continuum of parameters", E+":EMCoords.get_cover_radius")
p("Cover radius of an essential class",
  "For a class that never dies (death = inf) get_cover_radius returns a usable (finite) radius.",
  "all births and perc", "needs infinite entries in a distance matrix", E+":EMCoords.get_cover_radius")
p("Persistence ordering",
  "After construction, the classes of each dimension >= 1 are ordered by non-increasing persistence, the reordering is a permutation of the computed classes, and the i-th cocycle still belongs to the i-th diagram point.",
  "all diagrams and cocycle lists", "all orderings including ties and infinite classes", E+":EMCoords.__init__", E+":EMCoords.get_representative_cocycle")
p("Joint support of the selected classes",
  "ToroidalCoords.get_coordinates raises 'supports do not intersect' iff some selected class is born no earlier than some selected class dies; otherwise (and if no other error is raised) the threshold it uses is, for 0<perc<1, at least every selected birth and at most every selected death.",
  "all selections of classes and diagrams", "all selections", T+":ToroidalCoords.get_coordinates")
p("Partition of unity",
  "For each built-in bump function (linear, quadratic, exp), every landmark-to-data distance table and every radius: the weights of a covered data point are non-negative, sum to 1, and are positive exactly on the landmarks at distance less than the radius.",
  "all distance tables with non-negative entries, all radii", "continuum of inputs", E+":EMCoords.get_covering_partition", U+":PartUnity.linear", U+":PartUnity.quadratic", U+":PartUnity.exp")
p("Uncovered points are reported and yield NaN, covered points do not",
  "get_covering_partition warns iff some data point is not within the radius of any landmark, with the exact number of such points, and the weights are NaN for exactly those points; the circular coordinate is NaN for exactly those points.",
  "all distance tables, radii, and cochains", "all tables", E+":EMCoords.get_covering_partition", T+":_sparse_integrate")
p("Ball index is the first covering landmark",
  "The ball index of a covered data point is the smallest landmark index whose ball contains it (0 for an uncovered point), so all smaller landmarks have weight 0 at that point.",
  "all distance tables and radii", "all tables", E+":EMCoords.get_covering_partition")
p("Covered points get a coordinate for every numeric type of distance matrix",
  "A data point within the cover radius of a landmark gets finite weights summing to one even if the distance matrix is given with integer entries.",
  "all distance tables, including integer typed ones", "tests use float matrices only", E+":EMCoords.get_covering_partition")
p("Reported coverage is the covering radius of the landmarks",
  "The coverage stored by the constructor is the largest distance from a data point to its nearest landmark.",
  "all data sets and landmark choices", "never tested", E+":EMCoords.__init__")
# --- circular / toroidal -------------------------------------------------------------------------
p("Circular coordinates are angles",
  "Every circular/toroidal coordinate returned for a covered point lies in [0, 2*pi).",
  "all inputs", "continuum", T+":_sparse_integrate", T+":_reduce_circular_coordinates", U+":CircleMapUtils.linear_combination")
p("Circular coordinates do not depend on the chosen cover element",
  "If the cochain is an integer cocycle on the Rips complex at the threshold and distances satisfy the triangle inequality, then evaluating the coordinate formula at a data point with any landmark ball containing the point gives the same angle as the one returned, for every output of the least-squares solver.",
  "all data, covers, integer cocycles, least squares outputs, all balls containing the point", "all inputs and all internal choices", T+":_sparse_integrate", T+":_integrate_harmonic_representative", E+":EMCoords.get_covering_partition")
p("Circular coordinates represent the selected class",
  "On each landmark ball U_i the coordinate has a real-valued lift F_i, given by weights only, and on overlaps F_i - F_j is exactly the integer cocycle value on the edge ij: the pullback of the fundamental class of the circle is the selected (repaired) integer class.",
  "all data, covers, integer cocycles, least-squares outputs", "the theorem of the paper, for every data set", T+":_sparse_integrate", "docs/theory.rst")
p("One-sided edge matrix suffices",
  "Although the internal edge matrix is only filled for i<j, the returned coordinate equals the one computed with the full antisymmetric edge function, because the ball index is the first ball containing the point.",
  "all data and covers", "cross-function invariant over all covers", T+":_sparse_integrate", E+":EMCoords.get_covering_partition")
p("Circular coordinates are continuous",
  "If two data points lie in a common landmark ball, their angles differ (on the circle) by at most 2*pi * max|theta| * sum_t |weight difference|.",
  "all pairs of points in a common ball, all integer cocycles", "continuum", T+":_sparse_integrate")
p("Coordinates are independent of the cocycle representative up to rotation",
  "Two integer cocycles differing by an integer coboundary, with any exact least squares solutions, give the same harmonic representative, and coordinates that on each connected component of the Rips complex differ by a constant rotation.",
  "all cohomologous integer cocycles and all least-squares solutions", "all representatives", T+":_integrate_harmonic_representative", "docs/faq.rst")
p("Harmonic representative has minimal energy",
  "With an exact least squares solution, the harmonic representative has the least sum of squares over Rips edges among all real cochains cohomologous to the cocycle.",
  "all cochains and complexes", "continuum", T+":_integrate_harmonic_representative", T+":_make_inner_product")
p("Lattice reduction is an integral change of basis",
  "At every iteration of _lll the change of basis matrix is integral with determinant +1 or -1 and the current basis is the input basis times it.",
  "all input bases, dimensions, numbers of iterations", "all executions", T+":_lll")
p("Toroidal coordinates carry the same information before and after reduction",
  "The toroidal coordinates returned are integer combinations of the individual circular coordinates by a unimodular matrix, and applying the inverse integer matrix recovers the individual coordinates exactly (mod 2*pi).",
  "all inputs, numbers of classes", "all inputs", T+":_reduce_circular_coordinates", U+":CircleMapUtils.linear_combination")
p("Lattice reduction of two classes terminates with a reduced basis",
  "For two classes with linearly independent harmonic representatives, _lll terminates and returns a basis with |mu| <= 1/2 that satisfies the Lovasz condition.",
  "all 2-dimensional lattices", "termination", T+":_lll")
p("Toroidal coordinates never have larger total Dirichlet energy",
  "The total energy (trace of the Gram matrix of the harmonic representatives) after lattice reduction is at most the one before.",
  "all Gram matrices, any number of classes", "tests check four data sets", T+":_reduce_circular_coordinates", T+":_lll", "test/test_circular.py:test_toroidal_coordinates_less_energy")
p("Gram-Schmidt produces orthogonal vectors",
  "_gram_schmidt returns pairwise orthogonal columns spanning the same flags as its input.",
  "all bases of all dimensions", "continuum", T+":_gram_schmidt")
p("Stored Gram matrix is the Gram matrix of the returned coordinates",
  "After get_coordinates with several classes, the stored Gram matrix is the matrix of inner products of the harmonic representatives of the returned coordinates.",
  "all Gram matrices", "tests only compare norms", T+":ToroidalCoords.get_coordinates")
p("Single-class calls coincide",
  "CircularCoords.get_coordinates(cocycle_idx=i) returns what ToroidalCoords.get_coordinates(cocycle_idxs=[i]) returns as its only entry, and no lattice reduction is applied.",
  "all objects and arguments", "all arguments", CC+":CircularCoords.get_coordinates", T+":ToroidalCoords.get_coordinates")
p("Linear combinations of circle maps are well defined",
  "linear_combination returns values in [0,2*pi), depends only on the angles modulo 2*pi when the matrix is integral, composes (applying A then B equals applying BA), the 1-dimensional form equals the corresponding row, and mismatched shapes are rejected.",
  "all angle arrays and integer matrices", "all matrices", U+":CircleMapUtils.linear_combination")
# --- lens / projective ------------------------------------------------------------------------------
p("Lens class map is well defined",
  "For a cocycle mod p on the Rips complex the complex vector assigned to a data point using any landmark ball containing it is the returned one times a p-th root of unity, and has norm 1.",
  "all data, covers, mod-p cocycles, balls", "all inputs", L+":LensCoords.get_coordinates")
p("Real projective class map is well defined",
  "For a cocycle mod 2 the real vector assigned to a data point using any landmark ball containing it is plus or minus the returned one and has norm 1.",
  "all data, covers, mod-2 cocycles, balls", "all inputs", R+":ProjectiveCoords.get_coordinates")
p("Complex projective class map is well defined",
  "For an integer 2-cocycle the complex vector assigned to a data point using any landmark ball containing it is a unit complex multiple of the returned one and has norm 1, for every output of the least-squares solver.",
  "all data, covers, integer 2-cocycles, least-squares outputs, balls", "all inputs", X+":_sparse_integrate")
p("Complex projective class map depends on the cocycle for every data size",
  "The class map returned by the compiled assembly step is the one accumulated in its array argument, whatever the size of the data.",
  "all data sizes", "depends on numba's capture of closure arrays, which changes at 10^6 bytes; the tests only use larger arrays", X+":_sparse_integrate")
p("Cochain tensors are antisymmetric",
  "The tensors built from 1- and 2-cochains satisfy t(s(i),s(j),..) = sign(s) t(i,j,..) for every permutation, agree with the cochain on increasing Rips simplices and vanish off the complex and on repeated vertices.",
  "all distance matrices, thresholds, cochains", "all index triples", X+":_one_cocycle_to_tensor", X+":_two_cocycle_to_tensor")
p("Equivariant dimensionality reduction is equivariant",
  "Multiplying each data vector by a unit complex number multiplies the corresponding output of EquivariantPCA.ppca by the same number, in every mode, for every eigenvector routine.",
  "all data, phases, dimensions, modes, eigen-solvers", "continuum", U+":EquivariantPCA.ppca")
p("Lens/projective coordinates are independent of the internal ball choice",
  "Replacing the first-ball choice by any other choice of containing balls, simultaneously for all data points, changes each output row of LensCoords (resp. ProjectiveCoords) only by a p-th root of unity (resp. sign): the output as a map into the lens/projective space is unchanged.",
  "all data, covers, cocycles, ball choices", "all internal choices at once", L+":LensCoords.get_coordinates", R+":ProjectiveCoords.get_coordinates", U+":EquivariantPCA.ppca")
p("Reduction output shape",
  "ppca returns one row per data point and proj_dim+1 columns in each mode.",
  "all input dimensions, target dimensions, modes", "all sizes", U+":EquivariantPCA.ppca")
p("Reduction terminates and preserves unit norm",
  "ppca terminates in every mode and every returned data vector has norm 1 provided its projections never vanish.",
  "all data, eigen-solvers, modes", "all sizes", U+":EquivariantPCA.ppca")
p("Variance is reported in every mode",
  "ppca returns the variance captured by each dimension, and the coordinates object stores it, in every reduction mode.",
  "all data and modes", "the tests compare 0 >= 0 in the default mode", U+":EquivariantPCA.ppca", R+":ProjectiveCoords.get_coordinates")
p("One uncovered point does not spoil the others",
  "If some data point is not covered, the projective/lens coordinates of the other points are unaffected by it.",
  "all data with uncovered points", "tests cover all points", L+":LensCoords.get_coordinates", U+":EquivariantPCA.ppca")
p("Class selection is validated",
  "A class index that is not an integer or is out of range is rejected with an error and leaves the object unchanged; negative indices count from the least persistent class.",
  "all indices", "all indices", E+":EMCoords.get_representative_cocycle")
# --- circle map utils -------------------------------------------------------------------------------
p("Offsets form a rotation action",
  "CircleMapUtils.offset returns values in [0,2*pi) equal to a rotation; offsets add up, integer offsets do nothing to angles in [0,2*pi), and the offset -t undoes t.",
  "all angles and offsets", "continuum", U+":CircleMapUtils.offset")
p("Centering is a rotation that brings a fullest bin to pi",
  "CircleMapUtils.center rotates all angles by one common amount, so that the left end of the first fullest of the 50 histogram bins goes to pi, and returns values in [0,2*pi); the points of that bin, at least a fiftieth of all points, land in [pi, pi + bin width]. If all angles are equal they all go to pi.",
  "all finite non-empty angle arrays", "all data", U+":CircleMapUtils.center")
p("Sinebow colours are periodic and balanced",
  "Two angles get the same to_sinebow colour exactly if they are equal modulo 2*pi; the channels of x are sin^2(x/2), sin^2(x/2-pi/3), sin^2(x/2-2*pi/3), so they lie in [0,1] and always add up to 3/2.",
  "all angles", "continuum", U+":CircleMapUtils.to_sinebow")
p("Level set colouring is periodic and bounded",
  "levelset_coloring values lie in [0,1], are 2*pi periodic, are exactly 0 or 1 without smoothing, alternating on the 2n equal arcs, with smoothing are the logistic function of the distance to the nearest boundary of a pair of arcs (so continuous, and 1/2 in the middle of each arc), and invalid numbers of level sets are rejected.",
  "all angles, numbers of level sets, smoothing values", "continuum", U+":CircleMapUtils.levelset_coloring")
# --- projective map utils ----------------------------------------------------------------------------
p("Hopf map is well defined and injective on the projective line",
  "hopf_map sends unit vectors of C^2 to unit vectors of R^3, and two unit vectors have the same image iff they differ by a unit complex factor.",
  "all unit vectors", "continuum", U+":ProjectiveMapUtils.hopf_map")
p("Rotation matrix",
  "rotmat(a,b) is orthogonal with determinant 1 and takes the direction of a to the direction of b.",
  "all non-zero vectors of all dimensions", "continuum", U+":ProjectiveMapUtils.rotmat")
p("Projective stereographic projection is well defined",
  "get_stereo_proj_codim1 gives antipodal points the same image unless they lie on the equator (where the images are antipodal), images lie in the closed unit disk, and distinct projective points off the equator have distinct images.",
  "all unit vectors and north poles of all dimensions", "continuum", U+":ProjectiveMapUtils.get_stereo_proj_codim1")
p("Hemisphere projection is injective into two disjoint disks",
  "stereographic_projection_hemispheres sends the open lower hemisphere into the open unit disk at the origin, the closed upper one into the closed unit disk centred at 2.5 on the first axis, and is injective on the sphere.",
  "all unit vectors", "continuum", U+":ProjectiveMapUtils.stereographic_projection_hemispheres")
p("Lens space to disk is well defined",
  "lens_3D_to_disk_3D sends unit vectors of C^2 into the closed unit ball and is invariant under multiplying both coordinates by a q-th root of unity.",
  "all unit vectors, all q", "continuum", U+":LensMapUtils.lens_3D_to_disk_3D")
p("Circle to north pole",
  "circle_to_3dnorthpole returns a point of the closed unit disk (the input if it is in the disk, else its radial projection) and the unit vector of the upper hemisphere above it.",
  "all points of the plane", "continuum", U+":ProjectiveMapUtils.circle_to_3dnorthpole")
# --- geometry utils --------------------------------------------------------------------------------
p("Cross-similarity is Euclidean distance",
  "get_csm returns the Euclidean distance between each pair of rows; the clipping of negative entries never changes the exact value.",
  "all point clouds of all dimensions", "continuum", U+":GeometryUtils.get_csm")
p("Projective arc length is a pseudometric on projective space",
  "For unit vectors get_csm_projarc lies in [0, pi/2], is symmetric, unchanged by flipping signs, zero exactly on projectively equal points, and satisfies the triangle inequality.",
  "all unit vectors", "continuum", U+":GeometryUtils.get_csm_projarc", U+":GeometryExamples.rp2_metric")
p("Greedy permutation is a farthest point sample",
  "Each landmark after the first maximises the distance to the previous landmarks, insertion radii are those distances and do not increase, landmarks are pairwise at least the later one's insertion radius apart, and, for at least two landmarks, every point is within the last insertion radius of some landmark.",
  "all distance matrices and numbers of landmarks", "all metrics", U+":GeometryUtils.get_greedy_perm_dm", U+":GeometryUtils.get_greedy_perm_pc", U+":GeometryUtils.landmark_geodesic_distance")
p("Greedy landmarks cover within twice the optimum",
  "The covering radius of the M greedy landmarks is at most twice the covering radius of any M centres.",
  "all finite pseudometrics and all M", "optimisation over all centre sets", U+":GeometryUtils.get_greedy_perm_dm")
p("Greedy landmarks are distinct",
  "The greedy permutation of M <= N points contains no repeated index.",
  "all distance matrices, M <= N", "fails only with duplicate points", U+":GeometryUtils.get_greedy_perm_dm", U+":GeometryUtils.get_greedy_perm_pc")
p("Point-cloud and distance-matrix sampling agree",
  "get_greedy_perm_pc on X returns the same permutation, insertion radii and landmark distances as get_greedy_perm_dm on the full matrix of pairwise distances.",
  "all point clouds, numbers of landmarks and distance functions", "all inputs", U+":GeometryUtils.get_greedy_perm_pc", U+":GeometryUtils.get_greedy_perm_dm")
p("Geodesic landmark output format",
  "landmark_geodesic_distance returns a permutation of all points starting with the landmarks, and a matrix whose column j is the distance from the landmarks to the j-th point of that permutation; its leading square block is the landmark-to-landmark matrix that the coordinates constructors read.",
  "all geodesic distance functions, numbers of landmarks", "all graphs", U+":GeometryUtils.landmark_geodesic_distance", E+":EMCoords.__init__")
# --- examples / plotting -----------------------------------------------------------------------------
p("Sampled surfaces satisfy their equations",
  "torus_3d points satisfy the torus equation, klein_bottle_4d points satisfy theirs, for all radii R >= r >= 0 and all random draws; for R > r > 0 distinct draws give distinct points, every point of the surface is the image of some draw, and the angle identifications are those of the torus and of the Klein bottle.",
  "all random draws and radii", "all draws", U+":GeometryExamples.torus_3d", U+":GeometryExamples.klein_bottle_4d")
p("Patch examples honour the requested patch size",
  "moving_dot(s, sigma, dim) returns s^2 patches of dim*dim pixels and line_patches(dim, a, o, sigma) a*o patches of dim*dim pixels.",
  "all sizes", "tests use the default dim", U+":GeometryExamples.moving_dot", U+":GeometryExamples.line_patches")
p("Moore space distance matrix is symmetric",
  "moore_space_distance_matrix returns a symmetric matrix with zero diagonal.",
  "all point samples of the disk and all primes", "not tested", U+":GeometryExamples.moore_space_distance_matrix")
p("Patch grid",
  "plot_patches places N patches at N distinct integer grid positions of a square grid of side ceil(sqrt N), patch i shows row i, and it raises ValueError exactly when the array is empty or the number of pixels is not a square.",
  "all N", "all N", PL+":PlotUtils.plot_patches")
p("Equal axes",
  "set_axes_equal sets three limits of equal length, keeps each axis's midpoint and never cuts off a previously visible range.",
  "all axis limits", "continuum", PL+":PlotUtils.set_axes_equal")
# --- appended ----------------------------------------------------------------------------------------
p("Lattice reduction terminates",
  "_lll terminates on every linearly independent family, so get_coordinates with several (linearly independent) classes returns.",
  "all numbers of classes and all invertible matrices", "termination for every input; the failing inputs are rare", T+":_lll", T+":_gram_schmidt")
p("Valid calls return",
  "get_coordinates on an object built from a float distance matrix, for one stored class whose lifetime contains the start of the range, returns one coordinate and stores the interpolated radius; with the cocycle check on, a correct complete solver and a mod-p cocycle, it returns iff the class has an integral lift and otherwise raises exactly the integral-lift error. For two classes with overlapping lifetimes whose lifts are cocycles the lattice reduction terminates and the call returns two coordinates, or raises LinAlgError from Cholesky.",
  "all well-formed objects, classes, percentages, bump functions, least-squares outputs", "unbounded sizes, real parameters and unbounded loop", T+":ToroidalCoords.get_coordinates")

p("Valid lens and projective calls return arrays of the stated shape",
  "LensCoords/ProjectiveCoords/ComplexProjectiveCoords.get_coordinates on an object built from a float distance matrix, for a stored class with values on pairs (triples) of landmarks whose lifetime contains the start of the range and an admissible dimension, returns one row per data point and complex_dim (resp. proj_dim + 1) columns, and stores the interpolated radius.",
  "all well-formed objects, classes, dimensions, percentages, bump functions, eigen-solver outputs", "unbounded sizes, arbitrary solver output", L+":LensCoords.get_coordinates", R+":ProjectiveCoords.get_coordinates", X+":ComplexProjectiveCoords.get_coordinates")
p("Lens and projective results do not depend on earlier calls",
  "The result of get_coordinates (array or error) of LensCoords, ProjectiveCoords and ComplexProjectiveCoords is the same whatever sequence of calls, failing or not, was made before on the same object.",
  "all call histories", "all histories", L+":LensCoords.get_coordinates", R+":ProjectiveCoords.get_coordinates", X+":ComplexProjectiveCoords.get_coordinates")

p("Other sampled shapes lie on or near their shapes",
  "sphere returns unit vectors; noisy_circle, bullseye and three_circles return points within half the noise, in each coordinate, of the stated circles; trefoil(noisy=True) points are at distance 1 from a closed curve that does not meet itself and trefoil(noisy=False) returns distinct points of the same tube; genus_two_surface points lie on two tori cut at x = 4.5, symmetrically.",
  "all random draws (except the exact centre, which divides by zero), noise sizes, numbers of samples, widths", "all draws", U+":GeometryExamples.sphere", U+":GeometryExamples.noisy_circle", U+":GeometryExamples.bullseye", U+":GeometryExamples.three_circles", U+":GeometryExamples.trefoil", U+":GeometryExamples.genus_two_surface")
p("Colours and boundaries of plots",
  "plot_rp3_stereo maps the values of a non-constant function monotonically to colour indices 0..255, reaching both ends; plot_2sphere_boundary draws the unit circles at 0 and 2.5; plot_3sphere_mesh draws a closed mesh of points of the unit sphere from pole to pole.",
  "all functions and mesh sizes", "all value vectors", PL+":PlotUtils.plot_rp3_stereo", PL+":PlotUtils.plot_2sphere_boundary", PL+":PlotUtils.plot_3sphere_mesh")

p("Constructors store ripser's classes and the landmark distances",
  "For a data set (point cloud, square or rectangular float distance matrix) and a correct ripser, the constructors of all coordinates classes succeed for maxdim >= 1 and raise the documented assertion for maxdim = 0; the object stores the distances from the landmarks to the data points and, in every dimension from 1 to maxdim, ripser's classes by decreasing persistence, each with its cocycle, with landmark numbers as vertices and values in 0..p-1.",
  "all data sets, landmark counts, primes, ripser results", "all data sets and all results of ripser", E+":EMCoords.__init__", T+":ToroidalCoords.__init__", CC+":CircularCoords.__init__", L+":LensCoords.__init__", R+":ProjectiveCoords.__init__", X+":ComplexProjectiveCoords.__init__")
p("Circular coordinates, from the data to the angles",
  "CircularCoords(X, ...).get_coordinates(cocycle_idx=z), after any history of calls: if some integer cocycle on the landmarks at the prescribed threshold is congruent modulo the prime to the z-th most persistent class that ripser found, the call returns the circular coordinate of such a cocycle (undefined exactly at uncovered points; glued from real-valued lifts over the balls whose differences are the values of the cocycle; with the normalised bump weights and an energy-minimising potential); otherwise it raises the error about the missing lift.",
  "all data sets, ripser results, classes, histories, percentages, bump functions", "all data sets and histories", CC+":CircularCoords.get_coordinates", E+":EMCoords.__init__", T+":ToroidalCoords.get_coordinates")
p("Toroidal coordinates, from the data to the angles",
  "If ToroidalCoords(X, ...).get_coordinates(cocycle_idxs=[z_0, ...]) returns, it returns one coordinate per selected class, and these are the circular coordinates of the rows of U*c, where c_a is an integer cocycle congruent modulo the prime to the z_a-th most persistent class that ripser found, with an energy-minimising potential, and U is an integer matrix of determinant 1 or -1.",
  "all data sets, ripser results, selections of classes, histories, percentages, bump functions", "all data sets and selections", T+":ToroidalCoords.get_coordinates", E+":EMCoords.__init__")
p("Lens and projective coordinates, from the data to the array",
  "LensCoords(X, ...).get_coordinates and ProjectiveCoords(X, ...).get_coordinates with an admissible dimension return an array of the stated shape, the dimensionality reduction of the array with the entry sqrt(w_v(i)) * exp(2 pi i xi(u, v) / p) (respectively with the sign (-1)^xi(u, v)) for data point i in the ball of landmark u and landmark v, where xi is the z-th most persistent class that ripser found and w are the normalised bump weights; the rows have norm 1 and another choice of ball multiplies them by a p-th root of unity (a sign).",
  "all data sets, ripser results, classes, histories, dimensions, percentages, bump functions, eigen-solvers", "all data sets and solver outputs", L+":LensCoords.get_coordinates", R+":ProjectiveCoords.get_coordinates", E+":EMCoords.__init__")

p("Complex projective coordinates, from the data to the array",
  "ComplexProjectiveCoords(X, ...).get_coordinates with an admissible dimension, for the z-th most persistent class of dimension 2 that ripser found: with c its balanced integer lift, if the check is off or c is an integer cocycle at the threshold, the call returns an array of the stated shape, the dimensionality reduction of the array of phases of c - d(nu) (an energy-minimising representative) with weights sqrt(w_v(i)); if c is a cocycle the rows have norm 1 and another choice of ball multiplies them by a number of modulus 1. With the check on and c not a cocycle the call raises NameError. (For small data the code loses the phases, see C51.)",
  "all data sets, ripser results, classes, histories, dimensions, percentages, bump functions, solvers", "all data sets and solver outputs", X+":ComplexProjectiveCoords.get_coordinates", X+":_sparse_integrate", E+":EMCoords.__init__")

p("Lookup tables are exact or not built",
  "combinatorial_number_system_table either raises OverflowError, exactly when some binomial coefficient C(i, l) of the table needs more than 63 bits, or stores every coefficient exactly; the tables of ToroidalCoords/CircularCoords exist for exactly up to 3810779 landmarks, the one of ComplexProjectiveCoords for exactly up to 121977; with such a table the compiled 64-bit index arithmetic never wraps around.",
  "all table sizes and all simplices", "all sizes", C+":combinatorial_number_system_table", C+":combinatorial_number_system_forward")
p("Coordinates are local and follow the order of the data",
  "The circular and toroidal coordinates of a data point depend only on the landmarks and on its own distances to them: two data sets with the same landmarks give the same exception, or the same coordinates at any data points with equal distances to the landmarks (so duplicates agree, and adding, removing or reordering points that are not landmarks changes nothing else). Reordering the data reorders the lens, projective and complex projective coordinates and leaves variance, radii and exceptions unchanged.",
  "all pairs of data sets with equal landmarks, all reorderings, arguments and solver outputs", "all data sets and permutations", T+":ToroidalCoords.get_coordinates", L+":LensCoords.get_coordinates", R+":ProjectiveCoords.get_coordinates", X+":ComplexProjectiveCoords.get_coordinates", U+":EquivariantPCA.ppca")
p("Coordinates do not depend on the unit of length",
  "Multiplying the data by a positive constant (hence ripser's diagrams and distances) changes neither the exceptions of constructor and get_coordinates nor any coordinate of any class, for each of the bump functions linear, quadratic and exp and for every other unit-free bump function; the reported radii are multiplied by the constant.",
  "all positive factors, data sets, ripser results, arguments and solver outputs", "all factors and data sets", E+":EMCoords.__init__", E+":EMCoords.get_cover_radius", E+":EMCoords.get_covering_partition", U+":PartUnity", T+":ToroidalCoords.get_coordinates", L+":LensCoords.get_coordinates", R+":ProjectiveCoords.get_coordinates", X+":ComplexProjectiveCoords.get_coordinates")

p("Partition of unity in floating point",
  "In floating point arithmetic, whatever the order in which NumPy sums: the weights get_covering_partition returns for a data point are all nan, or all lie in [0, 1] and vanish for landmarks whose ball does not contain the point; if the sum does not overflow they add up to 1 with an error of at most (L + 1) * 2^-52 for L landmarks (float64).",
  "all distances, radii, numbers of landmarks, orders of summation, number formats, bump functions", "all inputs and summation orders", E+":EMCoords.get_covering_partition", U+":PartUnity")
p("Covered points are not lost in floating point",
  "In floating point arithmetic the weights of a data point are nan exactly if its distance to every landmark is at least the radius, and the warning reports the number of these points. (True for the linear bump function; false for the quadratic and the exponential one, whose values underflow near the boundary of the balls.)",
  "all distances, radii, orders of summation, number formats", "all inputs", E+":EMCoords.get_covering_partition", U+":PartUnity")
p("Circular coordinates are angles in floating point",
  "In floating point arithmetic the returned circular coordinates lie in the half-open interval from 0 to 2 pi and agree modulo 2 pi with the computed number of turns up to one rounding. (False for the half-open interval: 2 pi itself is returned for tiny negative numbers of turns.)",
  "all numbers of turns and number formats", "all inputs", T+":ToroidalCoords.get_coordinates", CC+":CircularCoords.get_coordinates")
p("The threshold lies in the class's lifetime in floating point",
  "In floating point arithmetic get_cover_radius raises its error exactly if the admissible interval is empty; perc=0 and perc=1 give exactly its end points and every other perc in [0, 1] a threshold inside the interval. (False for the last clause: the threshold may leave the interval by a unit in the last place; its error is at most three roundings.)",
  "all births, deaths, percentages, number formats", "all inputs", E+":EMCoords.get_cover_radius")
p("Cross-similarity is a distance in floating point",
  "In floating point arithmetic get_csm returns a non-negative number, symmetric if the matrix product is, close to the Euclidean distance and zero exactly for equal points. (False for the last clause: the squares cancel, so distances of points far from the origin are lost and with fused multiply-add a point may have positive distance from itself.)",
  "all points, dimensions, orders of summation, matrix products", "all inputs and summation orders", U+":GeometryUtils.get_csm")
p("The lattice reduction is integral in floating point",
  "In floating point arithmetic, whatever the rounding errors in the basis, the Gram-Schmidt vectors and the inner products: if the lattice reduction behind ToroidalCoords.get_coordinates returns, the column operations it performed form an integer matrix of determinant 1 or -1, and the returned change of basis is exactly this matrix as long as its integers (and those of the intermediate products) stay within 2^53 (float64).",
  "all bases, numbers of classes, numbers of iterations, inner product routines, number formats", "all inputs and rounding errors", T+":_lll", T+":_gram_schmidt", T+":ToroidalCoords.get_coordinates")

p("Cocycles are stored for the landmarks ripser used",
  "The constructors store, for every class, the cocycle that ripser computed on the landmarks: the value of ripser's cocycle on a simplex of landmark positions is the stored value on these positions, so that the stored class is a cocycle whenever ripser's is, and coordinates of a class that winds around the data wind around the circle. (True if the landmarks are different data points. False if a landmark is repeated, which happens for data with fewer different points than landmarks: ripser's cocycles come with data indices, all copies of a landmark are stored as the last copy, everything at the other copies is lost, the stored class can be a cocycle only if it is trivial around the repeated point, and get_coordinates silently returns coordinates that do not represent the class.)",
  "all landmark lists, cocycles of all dimensions; for the failure: all repeated landmarks, and a complete call", "all cocycles and landmark lists", U+":CohomologyUtils.reindex_cocycles", E+":EMCoords.__init__", T+":ToroidalCoords.get_coordinates")

p("The reduction loses nothing if nothing has to be lost",
  "If the data points passed to EquivariantPCA.ppca are unit vectors that lie in a linear subspace of dimension proj_dim + 1, the returned vectors are finite and have the same inner products as the data points, in each of the three modes: the configuration in projective space is only moved by a unitary map.",
  "all data sets of any size and dimension in a subspace, target dimensions, modes, correct eigenvector routines (real or complex)", "all data sets and eigenvector routines", U+":EquivariantPCA.ppca")
p("The reduction keeps the principal components",
  "Every step of EquivariantPCA.ppca replaces the data by their components, scaled to length one, along orthonormal directions that capture as much of the energy (sum of squared lengths) of the data as any equally many orthonormal directions can; mode direct takes one step to proj_dim + 1 dimensions, one-by-one drops one dimension per step, exponential halves the number of superfluous dimensions per step and ends at proj_dim + 1 dimensions.",
  "all finite data sets, dimensions, target dimensions, modes, correct eigenvector routines (real or complex)", "all data sets and all competing sets of directions", U+":EquivariantPCA.ppca")

p("Coordinates wind around the circle as the classes do",
  "Follow the returned circular coordinate along a closed path of data points, going the short way around the circle at each step, where consecutive points lie in the ball of a common landmark and their weights are close enough (always the case if the harmonic representative has values of absolute value at most 1/4): the total number of turns is an integer, it is the value of the integer cocycle on the closed path of these landmarks, and it is congruent modulo prime to the value of the chosen persistent class on this path; so a coordinate turns around along every loop the class detects. With several classes the k-th coordinate turns as the k-th row of the unimodular change of basis combines the classes.",
  "all checked calls, all closed paths of any length, all least squares solvers", "all data sets, paths and solvers", T+":ToroidalCoords.get_coordinates", CC+":CircularCoords.get_coordinates")
p("Operations on circle maps act on numbers of turns",
  "offset and center change the number of turns of a circle-valued map along no path of data points; the i-th map returned by linear_combination with an integer matrix turns as many times as the i-th row of the matrix combines the numbers of turns of the given maps, as long as the combined steps stay below half a turn.",
  "all maps, paths, offsets, integer matrices", "all maps and paths", U+":CircleMapUtils.offset", U+":CircleMapUtils.center", U+":CircleMapUtils.linear_combination")

p("Lens and projective coordinates detect the class",
  "If the data points are all covered and the reduction loses nothing (complex_dim = n_landmarks, proj_dim = n_landmarks - 1, or the class map lies in a subspace of the target dimension), the returned rows know the class: along every closed path of data points with consecutive points in a common ball, the product of the inner products of consecutive rows of the lens coordinates is a positive multiple of exp(-2 pi i s / prime), and of the projective coordinates has the sign (-1)^s, where s is the value of the class on the closed path of landmarks; so the phase is trivial exactly along the paths the class does not detect.",
  "all calls with a correct eigenvector routine, all closed paths of any length, all modes", "all data sets, paths and eigenvector routines", L+":LensCoords.get_coordinates", R+":ProjectiveCoords.get_coordinates", U+":EquivariantPCA.ppca")

p("The consistency check leaves good classes alone",
  "If the selected classes are integer cocycles on the Rips complex at the threshold once their values are lifted to the symmetric range, the flag check_cocycle_condition of the circular, toroidal and complex projective get_coordinates changes neither the result nor the object, whatever the solvers do; without the flag the integer program solver is never used.",
  "all objects, classes, thresholds, solvers", "all data sets and solvers", T+":ToroidalCoords.get_coordinates", X+":ComplexProjectiveCoords.get_coordinates")

p("The selected point is not modified",
  "circle_to_3dnorthpole leaves the array it is given as it is and accepts every point of the plane. (True for points of the closed unit disk. False outside: an array of floats is overwritten by the clipped point, and an array of integers raises a TypeError.)",
  "all points of the plane, arrays of floats and of integers", "continuum", U+":ProjectiveMapUtils.circle_to_3dnorthpole")

p("Arrows show how the boundary circles are glued",
  "plot_2sphere_boundary draws arrows that leave the first disk at a point v of its boundary and enter the second disk at v + 2.5; this is how the images of stereographic_projection_hemispheres continue: points of the lower hemisphere that converge to a point of the equator have images that converge to a boundary point v of the first disk, and those of the upper hemisphere, like the point itself, to v + 2.5 in the second. plot_proj_boundary and plot_rp2_stereo draw a closed unit circle with a pair of antipodal arrows.",
  "all points of the equator, all centres, all dimensions, all approaching points", "continuum", PL+":PlotUtils.plot_2sphere_boundary", PL+":PlotUtils.plot_proj_boundary", PL+":PlotUtils.plot_rp2_stereo", U+":ProjectiveMapUtils.stereographic_projection_hemispheres")

p("The whole computation winds around as the data do",
  "For a data set given to the constructor of CircularCoords or ToroidalCoords and a class of ripser: along every closed path of data points with consecutive points in the ball of a landmark and small steps, the coordinate returned by get_coordinates turns around the circle an integer number of times, which is the value on the path of landmarks of an integer cocycle congruent to ripser's class modulo prime (the one with values between -prime/2 and prime/2, if there is one; for several classes, of a unimodular combination of such cocycles); so if the class does not vanish modulo prime on the path, some coordinate turns.",
  "all data sets, ripser results, histories of calls, parameters, closed paths of any length, solvers", "all data sets, paths, histories and solvers", CC+":CircularCoords.__init__", CC+":CircularCoords.get_coordinates", T+":ToroidalCoords.get_coordinates", U+":CohomologyUtils.lift_to_integer_cocycle")
p("The whole computation of lens and projective coordinates detects the class",
  "For a data set given to the constructor of LensCoords or ProjectiveCoords, a class of ripser, and the full dimension (complex_dim = n_landmarks, proj_dim = n_landmarks - 1), if the balls cover the data: along every closed path of data points with consecutive points in the ball of a landmark, the product of the inner products of consecutive returned rows is a positive multiple of exp(-2 pi i s / prime), or has the sign (-1)^s, where s is the value of ripser's class on the path of landmarks.",
  "all data sets, ripser results, histories of calls, parameters, closed paths of any length, correct eigenvector routines", "all data sets, paths, histories and eigenvector routines", L+":LensCoords.__init__", L+":LensCoords.get_coordinates", R+":ProjectiveCoords.get_coordinates")

p("Geodesic landmark distances",
  "landmark_geodesic_distance(X, n_landmarks, n_neighbors) returns an array whose entry (i, j) is the length of a shortest chain from landmark i to the j-th point of the returned list in a graph joining every point to n_neighbors nearest points (infinite if there is none); the landmarks are a farthest point sample of these distances; the array is symmetric on landmarks, zero from a landmark to itself, satisfies the triangle inequality, is at least the Euclidean distance and equal to it if n_neighbors = n; the list contains every point, once if the points are different; the entries are finite exactly if the graph is connected, and then the array can be given to the constructors as a distance matrix.",
  "all point clouds, numbers of landmarks and of neighbours, choices among equally near neighbours", "all point clouds", U+":GeometryUtils.landmark_geodesic_distance")

p("Operations on circle maps in floating point",
  "In floating point arithmetic offset, center and linear_combination return angles in the closed interval from 0 to 2 pi that agree modulo 2 pi with the exact rotation or integer combination up to a few roundings (explicit bound), as long as nothing overflows; the offset 0 and the rows of an identity matrix return the angle exactly; levelset_coloring returns exactly 0 or 1 without smoothing and numbers in [0, 1] with smoothing, and to_sinebow numbers in [0, 1].",
  "all machine numbers, number formats, orders of summation, numbers of maps", "continuum of floats and all formats", U+":CircleMapUtils.offset", U+":CircleMapUtils.center", U+":CircleMapUtils.linear_combination", U+":CircleMapUtils.levelset_coloring", U+":CircleMapUtils.to_sinebow")

p("Circular coordinates in floating point represent the class",
  "In float64 arithmetic, with at most 65536 landmarks and any order of summation: the circular coordinate of a covered data point is finite and in the closed interval from 0 to 2 pi, and over the ball of every landmark l that contains the point it agrees, modulo a full turn, with the weighted mean of f_m + c(l, m) (the real-valued lift of the class over that ball; f the computed integral, c the integer cocycle, w the computed weights), up to (20 L + 51) A 2^-53 turns, where A bounds |f| and |c|. So rounding never changes the class the coordinates represent; no assumption is made on the accuracy of the least squares solver.",
  "all machine numbers as distances, integrals up to 2^900, cocycles, orders of summation, numbers of landmarks, bump functions", "continuum of floats, all orders of summation", T+":_sparse_integrate", T+":_integrate_harmonic_representative", E+":EMCoords.get_covering_partition")

p("Winding numbers of circular coordinates in floating point",
  "In float64 arithmetic, with at most 65536 landmarks and any order of summation: along every closed path of covered data points, of any length, with consecutive points in the ball of a landmark, the circular coordinates as computed turn around the circle (measured by shortest steps between consecutive values) exactly as often as the integer cocycle says on the path of landmarks, if the lift over each ball changes by less than half a turn minus (20 L + 51) A 2^-52 between consecutive points. Rounding does not accumulate along the path.",
  "all machine numbers as distances, integrals up to 2^900, cocycles, orders of summation, numbers of landmarks, closed paths of any length", "continuum of floats, all paths", T+":_sparse_integrate", T+":_integrate_harmonic_representative", E+":EMCoords.get_covering_partition")

p("The order of the classes does not matter",
  "Two calls of ToroidalCoords.get_coordinates with the same arguments except that cocycle_idxs lists the same classes in another order, with any calls in between: if both return, they use the same cover radius, and at every covered data point the coordinates returned by the second call are, modulo 2 pi, integer combinations of those returned by the first call, by one matrix of determinant 1 or -1. So the coordinate system does not depend on the order, only the basis does.",
  "all objects, permutations of the classes, histories of calls, solvers, bump functions positive on their support", "all data, orders and histories", T+":ToroidalCoords.get_coordinates", T+":_gram_matrix", T+":_lll")

p("Which data points get coordinates",
  "A coordinate returned by ToroidalCoords or CircularCoords, after any history, is NaN exactly at the data points at distance at least r from all landmarks (r the cover radius of the call). If every row of the input is a landmark and r > 0, or if the landmarks are a farthest point sample and the rows can be split into n_landmarks groups of diameter less than r, every row gets a coordinate in [0, 2 pi). Increasing perc never takes a coordinate away from a point.",
  "all data sets, histories of calls, parameters, solvers", "all data sets", T+":ToroidalCoords.get_coordinates", T+":ToroidalCoords.__init__", CC+":CircularCoords.get_coordinates", E+":EMCoords.get_covering_partition", E+":EMCoords.get_cover_radius")

p("Coordinates survive ripser's single precision",
  "ripser stores the distances as 32-bit floats while the rest of the code works with 64-bit floats. Nevertheless, for every perc between 0 and 1, CircularCoords.get_coordinates returns the circular coordinate of an integer cocycle congruent to the class modulo the prime, or reports that there is none. (True if (1 - perc) times the lifetime exceeds 2^-24 of the death, in particular for the default values of perc and lifetimes of at least a millionth of the death; false at perc = 1, where the call can silently return the coordinates of a cochain that is not a cocycle.)",
  "all data sets, percentages, histories of calls, solvers", "all data sets and roundings", CC+":CircularCoords.get_coordinates", T+":ToroidalCoords.get_coordinates", E+":EMCoords.__init__", E+":EMCoords.get_cover_radius")

p("Rounded distances keep the cover compatible with the Rips complex",
  "If the entries of the distance matrix are the correctly rounded (float64) values of distances that satisfy the triangle inequality, and the radius and threshold are those computed by get_cover_radius in floating point (not tiny), then a data point in the balls of two landmarks always has the edge between them in the Rips complex that is used. Hence, along closed paths of data points, the computed circular coordinates turn around the circle exactly as often as the integer cocycle says, without further assumption on the rounding. (An error of less than one unit in the last place in the distance matrix is not enough.)",
  "all metrics, machine numbers, percentages, orders of summation, numbers of landmarks up to 65536, closed paths", "continuum of floats", E+":EMCoords.get_cover_radius", E+":EMCoords.get_covering_partition", T+":_sparse_integrate")

p("Every call with at most four classes ends",
  "ToroidalCoords.get_coordinates with at most four classes, on a constructed object and after any history of calls, ends: it returns one coordinate per selected class, or raises one of a fixed list of exceptions: AssertionError (an index that is not an integer), IndexError (an index out of range, negative indices counting from the end), ValueError (no class selected, or a second repaired cocycle), the two exceptions for classes with disjoint or too short lifetimes, no integral lift (only with check_cocycle_condition), LinAlgError (only with two or more classes). The exceptions for the arguments are raised exactly in these cases (the first wrong index decides; lifetimes are disjoint if a selected class dies before another is born). Nothing else is raised and the basis reduction does not run forever. With five classes there is a data set on which the call never ends.",
  "all data sets, histories of calls, parameters, solvers", "termination for all inputs", T+":ToroidalCoords.get_coordinates", T+":ToroidalCoords.__init__", T+":_lll")

p("How every call of the lens and projective classes ends",
  "get_coordinates of LensCoords, ProjectiveCoords and ComplexProjectiveCoords, on a constructed object, after any history of calls and for all arguments, ends according to a fixed table whose rows exclude each other: AssertionError for an index that is not an integer; IndexError for an index out of range (negative ones count from the end); the exception for a lifetime shorter than the allowed range; AssertionError for an unknown reduction mode; AttributeError in mode 'one-by-one' if the projective dimension is not between 1 and n_landmarks - 1; otherwise an array with one row per data point and min(n_landmarks, wanted number) columns, silently fewer than asked if there are too few landmarks. ComplexProjectiveCoords with the cocycle check can in addition raise NameError. Nothing else is raised and no call runs forever.",
  "all data sets, histories of calls, arguments (classes, percentages, dimensions including negative ones, modes, bump functions), eigensolvers, least squares and integer solvers", "all inputs and histories", L+":LensCoords.get_coordinates", R+":ProjectiveCoords.get_coordinates", X+":ComplexProjectiveCoords.get_coordinates", U+":EquivariantPCA.ppca")

p("Lens coordinates modulo 2 are real projective coordinates",
  "LensCoords(X, prime=2) and ProjectiveCoords(X) on the same data are interchangeable: if the eigenvector routine returns for a real matrix the same eigenvectors whether it is stored as real or as complex array, then after corresponding calls any call with complex_dim = proj_dim + 1 returns the same array (with zero imaginary parts) or raises the same exception, and leaves the same attributes. Whatever eigenvectors the routines choose, if the balls cover the data and no dimension is lost (complex_dim = n_landmarks), the inner products of any two rows are the same real numbers, also with different reduction modes.",
  "all data sets, histories of calls, arguments, eigensolvers", "all inputs and histories", L+":LensCoords.get_coordinates", L+":LensCoords.__init__", R+":ProjectiveCoords.get_coordinates", R+":ProjectiveCoords.__init__", U+":EquivariantPCA.ppca")

p("Complex projective coordinates detect the class",
  "For ComplexProjectiveCoords(X, n_landmarks).get_coordinates with proj_dim = n_landmarks - 1, if the balls cover the data and the lift of the class is an integer cocycle: take any closed oriented surface cut into polygons with a data point at each corner, each polygon in the ball of one landmark and small (the weights change by less than 1/(4M) along each edge and 1/(2M) around each polygon, where M bounds the form c - d(nu)). The product of the inner products of consecutive returned rows around a polygon does not depend on the representatives of the points of the projective space; the phases of these products add up to 2 pi times the value of the class on the surface of landmarks (the first Chern number of the coordinates is the value of the class).",
  "all data sets, histories of calls, percentages, bump functions, modes, exact eigensolvers, least squares solvers, closed surfaces of any genus and size", "continuum of data, all surfaces", X+":ComplexProjectiveCoords.get_coordinates", X+":_sparse_integrate", U+":EquivariantPCA.ppca")

p("Nearby data points have nearby coordinates",
  "All coordinate maps are Lipschitz in the data. The three bump functions of the library are Lipschitz (constants 1, 2r and 8/r). For two data points in the ball of one landmark whose distances to every landmark differ by at most eps, with bump value m at the first point, Lipschitz constant L and k landmarks: the circular or toroidal angles differ by at most 4 pi M k L eps / m up to whole turns, where M bounds the form of the coordinate on the edges of the Rips complex; with no dimension lost in the reduction, the rows of lens and real projective coordinates are unit vectors whose inner product has absolute value at least 1 - k L eps / m, and those of complex projective coordinates at least (1 - k L eps / m) cos(4 pi M k L eps / m). In particular the choice of the ball a point is assigned to causes no jump.",
  "all data sets, pairs of data points, histories of calls, percentages, Lipschitz bump functions, classes, modes, solvers", "continuum of data", T+":ToroidalCoords.get_coordinates", L+":LensCoords.get_coordinates", R+":ProjectiveCoords.get_coordinates", X+":ComplexProjectiveCoords.get_coordinates", E+":EMCoords.get_covering_partition", U+":PartUnity")

p("Pairs of circular coordinates have the degree of the cup product",
  "Take two circular coordinates of the same data (two calls of CircularCoords.get_coordinates on one object for two classes, or two coordinates of one call of ToroidalCoords.get_coordinates): they map a closed oriented surface, cut into polygons with a data point at each corner, each polygon in the ball of one landmark and with short edges, to the torus. The angles of each polygon can be unrolled to real numbers that differ by less than pi along each edge, and however this is done the total signed area of the polygons in the plane is (2 pi)^2 times an integer n, the degree: 2n is twice the value of the cup product of the integer cocycles on the surface of landmarks, congruent modulo the prime to the value given by ripser's classes. For one toroidal call with two classes, the degree is that of the selected classes up to the sign of the unimodular change of basis.",
  "all data sets, histories of calls, percentages, bump functions, integer and least squares solvers, closed surfaces of any genus and size", "continuum of data, all surfaces", CC+":CircularCoords.get_coordinates", T+":ToroidalCoords.get_coordinates", T+":_sparse_integrate", T+":_lll")

p("The prime does not matter",
  "If the classes selected in two objects, built for the same data and landmarks with different primes, have the same lifetimes and their representatives are the reductions of the same integer cochains with values smaller than half of each prime, then circular and toroidal coordinates are identical: the two calls return the same arrays, or raise the same exception, after any histories of calls and for all solvers, if the cocycle check is off or the cochains are integer cocycles at the threshold of the call. The same for ComplexProjectiveCoords and classes of dimension 2.",
  "all data sets, pairs of primes, histories of calls, percentages, bump functions, solvers, reduction modes", "all data sets and primes", T+":ToroidalCoords.get_coordinates", T+":ToroidalCoords.__init__", X+":ComplexProjectiveCoords.get_coordinates", U+":lift_to_integer_cocycle")

p("How the data are passed does not matter",
  "A data set can be passed as a point cloud, as a square distance matrix, or as a rectangular one with more data points than rows. If two arrays describe the same distances (and ripser, which sees only the distances between rows, finds the same landmarks, diagrams and cocycles), the constructors of all classes return the same object, so that all later calls have the same results. If the second array only adds columns (data points that cannot be landmarks), circular and toroidal coordinates of the old data points do not change, and the calls raise the same exceptions, after any histories of calls.",
  "all data sets, formats, histories of calls, arguments, solvers", "all data sets and formats", E+":EMCoords.__init__", T+":ToroidalCoords.get_coordinates", L+":LensCoords.__init__", R+":ProjectiveCoords.__init__", X+":ComplexProjectiveCoords.__init__")

p("Winding numbers do not depend on the options",
  "Two calls for the same class on the same CircularCoords object, with different percentages, ranges, bump functions, least squares and integer solvers and after different histories: if the class is the reduction of an integer cocycle (at the larger of the two thresholds) with values smaller than half of the prime, then along every closed path of data points with small steps in balls of the smaller radius both coordinates turn equally often, namely by the value of that cocycle on the path of landmarks. For ToroidalCoords with several classes the numbers of turns of the two calls are related by one unimodular integer matrix, the same for all paths.",
  "all data sets, histories of calls, pairs of options, solvers, closed paths of any length", "continuum of data and options", CC+":CircularCoords.get_coordinates", T+":ToroidalCoords.get_coordinates", E+":EMCoords.get_cover_radius")

p("Reduced coordinates still detect the class if the reduction loses little",
  "A finite result of the dimensionality reduction of unit vectors, in every mode, is one orthogonal projection to a subspace of the prescribed dimension followed by scaling to length one (in mode direct, to a subspace that captures most of the energy), and inner products change at most by the product of the distances of the two vectors from that subspace. Hence LensCoords and ProjectiveCoords with fewer dimensions than landmarks still determine the class: along a closed path of data points with consecutive points in the ball of a landmark, if the product of the lost parts of consecutive points is less than sin(pi/p) times the overlap of their weights, then the nearest multiples of 2 pi/p to the angles of the inner products of consecutive rows are unique and add up to minus the value of the class on the path modulo p; for real projective coordinates, if the lost product is less than the overlap, the sign of the product of the inner products is the parity of the value of the class.",
  "all data sets, histories of calls, dimensions, percentages, bump functions, modes, exact eigensolvers, closed paths of any length", "continuum of data, all dimensions", L+":LensCoords.get_coordinates", R+":ProjectiveCoords.get_coordinates", U+":EquivariantPCA.ppca")

p("Complex projective coordinates of fewer dimensions detect the class if the reduction loses little",
  "For ComplexProjectiveCoords.get_coordinates with any proj_dim, if the balls cover the data, the lift of the class is an integer cocycle, the class map has more than 10^6 bytes (see C51, C124) and the returned entries are finite: the rows are the normalised orthogonal projections of the unreduced vectors to a subspace. For every closed oriented surface cut into polygons of data points, each in the ball of a landmark: if on each edge the product of the lost parts of its ends is less than sin(2 pi phi) cos(2 pi M step) times the overlap of the weights, where M bounds the form c - d(nu), step is the change of the weights along the edge and phi an allowed error in turns, and M step + phi adds up to less than half a turn around each polygon, then the phases of the products of the inner products of consecutive returned rows around the polygons add up to 2 pi times the value of the class on the surface. (E.g. the degree of the map of a sphere to CP^1 for proj_dim = 1.)",
  "all data sets, histories of calls, dimensions, percentages, bump functions, modes, exact eigensolvers, least squares solvers, closed surfaces of any genus and size", "continuum of data, all surfaces and dimensions", X+":ComplexProjectiveCoords.get_coordinates", X+":_sparse_integrate", U+":EquivariantPCA.ppca")

p("A class that does not vanish gives coordinates that cannot be unrolled",
  "If ripser reports that a class is born at b (its cocycle is not a difference modulo the prime on the Rips complex at b), the balls around landmarks joined at b have common data points (automatic for standard_range and a positive percentage), and the class lifts, then the circular coordinate is not the reduction modulo 2 pi of a real-valued function of the data that changes by less than half a turn within each ball, although the coordinate itself lifts to such a function on each ball. For toroidal coordinates of independent classes, no integer combination of the coordinates with coefficients not all divisible by the prime is such a reduction. For LensCoords and ProjectiveCoords with as many dimensions as landmarks the rows cannot be multiplied by phases (signs) such that all inner products of rows of data points in a common ball become positive. With fewer dimensions, if the product of the lost parts of the vectors of data points in a common ball is smaller than sin(pi/p) times (for real projective coordinates, smaller than) the overlap of their weights: the rows of LensCoords cannot be multiplied by p-th roots of unity such that the angles of these inner products become smaller than pi/p, and the signs of the rows of ProjectiveCoords cannot be chosen such that they become positive.",
  "all data sets, primes, histories of calls, percentages, ranges, bump functions, integer and least squares solvers, real-valued functions", "continuum of data and functions", CC+":CircularCoords.get_coordinates", T+":ToroidalCoords.get_coordinates", L+":LensCoords.get_coordinates", R+":ProjectiveCoords.get_coordinates")

p("Coordinates of geodesic distances wind along the neighbour graph",
  "GeometryUtils.landmark_geodesic_distance(X, n_landmarks, n_neighbors) returns an array of geodesic distances and a list of points. If the neighbour graph is connected, the array is a valid input of CircularCoords, ToroidalCoords and ProjectiveCoords with distance_matrix=True, and the j-th coordinate belongs to the j-th listed point. Along every closed path of neighbours in the graph, where each edge is inside the geodesic ball of a landmark and the coordinate changes little from point to point, the circular coordinate turns as often as an integer cocycle congruent to the class says, in particular it turns if the value of the class on the path is not zero modulo the prime; toroidal coordinates turn as the combinations say, and the lines of ProjectiveCoords turn around exactly if the class is odd on the path.",
  "all point clouds, numbers of landmarks and neighbours, primes, histories of calls, percentages, bump functions, exact solvers, closed paths of neighbours of any length", "continuum of point clouds, paths of any length", U+":GeometryUtils.landmark_geodesic_distance", CC+":CircularCoords.get_coordinates", T+":ToroidalCoords.get_coordinates", R+":ProjectiveCoords.get_coordinates")

p("Complex projective coordinates of a class that does not vanish are not a choice of vectors",
  "If ripser reports that a class of dimension 2 is born at b (its cocycle is not a coboundary modulo the prime on the Rips complex at b), the balls around three landmarks joined at b have common data points (automatic for standard_range and a positive percentage), the balls cover the data, the lift of the class is an integer cocycle, the class map has more than 10^6 bytes (see C51, C124), proj_dim is n_landmarks - 1, and the weights change within each ball by at most alpha / M, where M bounds the form c - d(nu) and alpha < 1/4, then the returned rows, which are points of CP^n, cannot be multiplied by phases such that the inner products of the rows of all pairs of data points in a common ball have phases below 1/3 - alpha turns. With any smaller proj_dim the same holds for phases below 1/3 - (alpha + eta) turns, if the product of the lost parts of the vectors of two data points in a common ball is less than sin(2 pi eta) cos(2 pi M step) times the overlap of their weights. For at most 10^6 bytes and proj_dim = n_landmarks - 1 all these inner products are positive, whatever the class is.",
  "all data sets, primes, histories of calls, percentages, ranges, bump functions, modes, exact eigensolvers, least squares solvers, choices of phases", "continuum of data and phases", X+":ComplexProjectiveCoords.get_coordinates", X+":_sparse_integrate", U+":EquivariantPCA.ppca")

p("Complex projective coordinates on the sphere: the Hopf map sees the class",
  "For unit vectors of C^2, the signed areas of the triangles of the unit sphere whose corners are the hopf_map images of the corners of a closed triangulated surface of data points add up to twice the sum of the phases of the products of the inner products around the triangles, and two images are antipodal iff the vectors are orthogonal. Hence for ComplexProjectiveCoords.get_coordinates with proj_dim = 1 followed by hopf_map, under the conditions of C131, the total signed area is 4 pi times the value of the class on the surface: the data surface covers the sphere as many times as the class says.",
  "all data sets, histories of calls, percentages, bump functions, modes, exact eigensolvers, triangulated closed surfaces of any genus and size", "continuum of data, all surfaces", X+":ComplexProjectiveCoords.get_coordinates", U+":ProjectiveMapUtils.hopf_map")

p("What a call leaves on the object",
  "LensCoords, ProjectiveCoords and ComplexProjectiveCoords: a new object has no stored cover radius and no variances. After any sequence of calls the stored radius and threshold are those of the last call that asked for an existing class that is long enough, whether or not this call failed later on; a call that names no class or one that is too short raises and changes nothing on the object; a call that raises does not change the stored variances; a call that returns stores variances, the same as if it had been the first call; distances, landmarks, diagrams, prime and lookup table never change. CircularCoords and ToroidalCoords: the stored radius is that of the last call whose classes exist, are alive together and are long enough, whether or not it failed later; all other calls raise and leave the radius; the stored Gram matrices and change of basis are changed by no call that raises or returns one coordinate, and are present after a call that returns several.",
  "all data sets, all sequences of calls with all arguments", "all histories", L+":LensCoords.get_coordinates", R+":ProjectiveCoords.get_coordinates", X+":ComplexProjectiveCoords.get_coordinates", T+":ToroidalCoords.get_coordinates", CC+":CircularCoords.get_coordinates", E+":EMCoords.get_cover_radius")

p("Which stored cocycles a call rewrites",
  "After any sequence of calls on a CircularCoords or ToroidalCoords object, the stored array cocycles_[1] of a class has the values of ripser's cocycle between 0 and p-1, unless some call named the class (by a positive or negative index) together with classes that exist and have a common part of their lifetimes: then it has the congruent values between -p/2 and p/2, even if that call raised an exception later on. On a ComplexProjectiveCoords object the same holds for cocycles_[2] and calls for a class that is not too short. All other arrays, and all arrays of LensCoords and ProjectiveCoords objects, never change.",
  "all data sets, primes, sequences of calls with all arguments, solvers", "all histories", T+":ToroidalCoords.get_coordinates", X+":ComplexProjectiveCoords.get_coordinates", L+":LensCoords.get_coordinates", R+":ProjectiveCoords.get_coordinates", U+":lift_to_integer_cocycle")

p("The plot of projective coordinates sees the class",
  "get_stereo_proj_codim1 plots the rows of ProjectiveCoords.get_coordinates (any proj_dim q) as points of the closed unit disc of dimension q. For all non-zero poles (given, or the eigenvector chosen): for two points P, Q of the plot let <P, Q> = 4 P.Q + (1 - |P|^2)(1 - |Q|^2). Its absolute value is (1 + |P|^2)(1 + |Q|^2) times the absolute value of the inner product of the two rows, so that the angle between the lines can be read off the plot. Along a closed path of data points with consecutive points in the ball of a landmark, such that the product of the parts of consecutive points lost in the reduction is less than the overlap of their weights, the product of the values <P, Q> of consecutive points of the plot is positive if the class has an even value on the path of landmarks, and negative if the value is odd.",
  "all data sets, histories of calls, dimensions, percentages, bump functions, modes, exact eigensolvers, poles, closed paths of any length", "continuum of data and poles, paths of any length", U+":ProjectiveMapUtils.get_stereo_proj_codim1", U+":ProjectiveMapUtils.rotmat", R+":ProjectiveCoords.get_coordinates")

if __name__ == "__main__":
    here = os.path.dirname(os.path.abspath(__file__))
    with open(os.path.join(here, "..", "properties.jsonl"), "w") as f:
        for q in P: f.write(json.dumps(q) + "\n")
    print(len(P))
    for q in P: print(q["id"], q["title"])
