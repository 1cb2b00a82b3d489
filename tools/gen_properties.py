import json
P=[]
def p(title,statement,quant,why,anchors):
    P.append(dict(id="C%02d"%(len(P)+1),title=title,statement=statement,quantifier=quant,why_tests_cant=why,anchors=anchors))
p("heapsort sorts and permutes",
  "heapsort(n, leq, swap, data) terminates and leaves the n entries of the user's array in ascending order with respect to leq, as a rearrangement of the original entries; it only ever touches entries 0..n-1.",
  "every n, every array, every total preorder passed as leq",
  "The number of arrays and orders is infinite; off-by-one errors in the sift-down bound only show for particular n and tie patterns.",
  ["Library/basic.c:_h2_heapsort","Library/basic.c:heap_down"])
p("Array allocators never hand out a buffer that is too small",
  "allocuint/allocreal/allocfield(n) either abort or request at least n*sizeof(entry) bytes; allocmatrix(rows, cols) with 32-bit dimensions either aborts or requests at least rows*cols*sizeof(field) bytes. (For arbitrary 64-bit rows, cols passed to allocmatrix this is false: the guard misses a wrap of rows*cols.)",
  "every 64-bit element count, every pair of 32-bit (resp. 64-bit) dimensions",
  "The wrapping inputs are a measure-zero set of huge numbers that no test machine can allocate.",
  ["Library/basic.c:_h2_allocuint","Library/basic.c:_h2_allocreal","Library/basic.c:_h2_allocfield","Library/basic.c:_h2_allocmatrix"])
p("Memory tracing is exact",
  "With TRACE_MEMORY, after every history of allocations and frees, get_current_memory() equals the total size of the live blocks, returns to 0 when everything is freed, and the internal 'current_memory >= sz' assertion never fires; under OpenMP this holds for every interleaving of the atomic updates.",
  "every sequence of allocate/free operations and every interleaving of the counter updates",
  "Histories and interleavings are unbounded.",
  ["Library/basic.c:_h2_allocmem","Library/basic.c:freemem","Library/basic.c:get_current_memory"])
p("Traced allocators: size guard",
  "With TRACE_MEMORY, allocuint/allocreal/allocfield(n) obtain a block with room for the header and n entries if n*sizeof(entry)+header < 2^64 and abort if n*sizeof(entry) >= 2^64. In the gap between the two the guard, which subtracts the header offset again, misses the wrap, and a block smaller than the header is returned (a defect of the code).",
  "every 64-bit element count",
  "Only element counts within a few bytes of 2^64/sizeof trigger it.",
  ["Library/basic.c:_h2_allocuint","Library/basic.c:_h2_allocreal","Library/basic.c:_h2_allocfield"])
p("Geometric clustering terminates and keeps the index set",
  "build_cluster(cf, size, idx, clf, H2_ADAPTIVE) terminates for every point set (including coincident points), and on return idx is a permutation of its original contents.",
  "every dimension, every point set, every index array, every leaf-size bound clf",
  "Degenerate point sets (coincident points, clf=0) are exactly those tests omit; termination needs an argument over all inputs.",
  ["Library/cluster.c:build_adaptive_cluster","Library/clustergeometry.c:update_point_bbox_clustergeometry"])
p("Cluster trees are consistent partitions",
  "In every tree returned by a successful build_cluster call (all four modes) the sons of each cluster are non-empty, occupy consecutive segments of the father's index array, and their sizes add up to the father's size; leaves are exactly the clusters without sons and together list every index once.",
  "every geometry, index array, leaf size and mode for which the builder returns",
  "The partition property must hold at each node of trees of unbounded depth.",
  ["Library/cluster.c:build_adaptive_cluster","Library/cluster.c:build_regular_cluster","Library/cluster.c:build_simsub_cluster","Library/cluster.c:build_pca_cluster"])
p("Leaf clusters respect the resolution",
  "In a tree built by H2_ADAPTIVE every leaf holds at most clf indices, unless all points of that leaf coincide; every non-leaf holds more than clf indices.",
  "every geometry, index array and clf",
  "Needs every leaf of every tree.",
  ["Library/cluster.c:build_adaptive_cluster"])
p("Bounding boxes enclose the supports",
  "For each cluster of a tree returned by build_cluster (any mode), the bounding box [bmin,bmax] contains the support box [smin,smax] of every index in the cluster, and it is the smallest such box.",
  "every geometry, every cluster of the tree",
  "An unsound box silently breaks the admissibility condition for some geometries only.",
  ["Library/clustergeometry.c:update_support_bbox_cluster","Library/clustergeometry.c:update_bbox_cluster","Library/cluster.c:build_adaptive_cluster"])
p("Regular, simultaneous and PCA clustering terminate unless points clump",
  "build_cluster terminates normally in modes H2_REGULAR, H2_SIMSUB and H2_PCA (positive weights, eigenvector routine returning a direction in which the points spread) whenever no more than clf of the given points coincide. The unconditional claim is false of the code: as soon as more than clf points coincide, each of these modes recurses for ever.",
  "every geometry, index array and clf",
  "Termination is about all point sets; coincident points beyond clf loop for ever.",
  ["Library/cluster.c:build_regular_cluster","Library/cluster.c:build_simsub_cluster","Library/cluster.c:build_pca_cluster"])
p("Descendant counts and depths",
  "For every tree the desc field equals the number of clusters in the subtree after construction and after each of extend/cut/balance/coarsen, getdepth_cluster returns the maximal and getmindepth_cluster the minimal distance from the root to a leaf.",
  "every cluster tree and every operation sequence",
  "Trees of unbounded size and shape, unbounded operation sequences.",
  ["Library/cluster.c:update_cluster","Library/cluster.c:getdepth_cluster","Library/cluster.c:getmindepth_cluster"])
p("Structure adaptation keeps the index partition",
  "extend_cluster, cut_cluster, balance_cluster and coarsen_cluster keep the leaves a partition of the same index sequence; after balance_cluster(t,d) every leaf is at level exactly d, after cut_cluster(t,d) no leaf is deeper than d, after extend_cluster(t,d) no leaf is shallower than d, after coarsen_cluster(t,m) no son has fewer than m indices.",
  "every tree, depth and size bound",
  "All tree shapes.",
  ["Library/cluster.c:extend_cluster","Library/cluster.c:cut_cluster","Library/cluster.c:balance_cluster","Library/cluster.c:coarsen_cluster"])
p("Cluster numbering is a bijection",
  "iterate_cluster, iterate_parallel_cluster and enumerate_cluster agree on the numbering: the cluster visited with number tname is entry tname of enumerate_cluster; every number 0..desc-1 is used exactly once; the pre callback of a father precedes and its post callback follows those of all descendants, under every parallel schedule.",
  "every tree, every parallel schedule and pardepth",
  "Schedules and trees are unbounded.",
  ["Library/cluster.c:iterate_cluster","Library/cluster.c:iterate_parallel_cluster","Library/cluster.c:enumerate_cluster"])
p("Block tree leaves tile the product index set",
  "For every admissibility function, the leaves of build_strict_block(rc,cc) and build_nonstrict_block(rc,cc) partition rows x columns: each pair (i,j) of positions lies in exactly one leaf block.",
  "every pair of cluster trees and every admissibility predicate",
  "A missed or doubled block corrupts the matrix only for special tree shapes (e.g. unbalanced trees).",
  ["Library/block.c:build_strict_block","Library/block.c:build_nonstrict_block"])
p("Leaf blocks are labelled correctly",
  "In the trees of build_strict_block/build_nonstrict_block a leaf is marked admissible iff the predicate accepts its pair; an inadmissible leaf of the strict tree has two leaf clusters, of the nonstrict tree at least one; no block whose pair is admissible is subdivided.",
  "every pair of cluster trees and every admissibility predicate",
  "All tree shapes and predicates.",
  ["Library/block.c:build_strict_block","Library/block.c:build_nonstrict_block"])
p("Lower triangular block trees",
  "build_nonstrict_lower_block and build_strict_lower_block return trees whose leaves partition rows x columns and whose blocks strictly above the block diagonal are leaves. (Requires the column cluster never to have more sons than the row cluster; otherwise the code reads and writes out of bounds.)",
  "every pair of cluster trees, every admissibility predicate",
  "The out-of-bounds case needs unequal trees.",
  ["Library/block.c:build_nonstrict_lower_block","Library/block.c:build_strict_lower_block"])
p("Block iterators use consistent names",
  "iterate_block, iterate_byrow_block and iterate_bycol_block visit every block exactly once with the same (bname, rname, cname); bname is its index in enumerate_block, rname/cname are the indices of its row/column cluster in enumerate_cluster.",
  "every block tree over every pair of cluster trees",
  "Names are computed incrementally from desc fields; drift shows only in deep, unbalanced trees.",
  ["Library/block.c:iterate_block","Library/block.c:iterate_byrow_block","Library/block.c:iterate_bycol_block","Library/block.c:enumerate_block"])
p("Row-wise parallel iteration is race free",
  "In iterate_byrow_block two callbacks that may run concurrently have row clusters with disjoint index sets (column clusters for iterate_bycol_block), so callbacks that only write data of their row cluster give the same result under every schedule.",
  "every block tree, every pardepth, every schedule of the parallel sections",
  "Schedules cannot be enumerated by running.",
  ["Library/block.c:iterate_rowlist","Library/block.c:iterate_collist","Library/block.c:iterate_byrow_block"])
p("Admissibility conditions are geometrically sound",
  "If admissible_2_cluster/admissible_max_cluster/admissible_2_min_cluster accept (t,s) with parameter eta>=0 then for all points x in t's box and y in s's box the diameters (both, resp. the smaller) are at most eta*|x-y|; the tests are symmetric, monotone in eta and inherited by sub-boxes.",
  "every pair of boxes in every dimension, every eta, every pair of points",
  "Quantifies over reals.",
  ["Library/block.c:admissible_2_cluster","Library/block.c:admissible_max_cluster","Library/block.c:admissible_2_min_cluster","Library/cluster.c:getdist_2_cluster"])
p("Sparse patterns behave as sets",
  "After any sequence of addnz_sparsepattern and clear_sparsepattern calls, the pattern contains (i,j) iff it was added since the last clear, and each position at most once.",
  "every operation history on every pattern size",
  "Histories are unbounded.",
  ["Library/sparsepattern.c:addnz_sparsepattern","Library/sparsepattern.c:clear_sparsepattern"])
p("Sparse matrix construction",
  "new_zero_sparsematrix(sp) yields a well-formed compressed-row matrix: entry positions are exactly those of the pattern, all coefficients are zero, and a diagonal entry, if present, is the first of its row; new_identity_sparsematrix represents the identity.",
  "every pattern reachable by addnz",
  "All patterns.",
  ["Library/sparsematrix.c:new_zero_sparsematrix","Library/sparsematrix.c:sort_sparsematrix","Library/sparsematrix.c:new_identity_sparsematrix"])
p("Sparse matrix accumulation",
  "After any sequence of addentry/setentry/clear operations on positions of the pattern, the represented matrix equals the one obtained by applying the same operations to a dense matrix, no matter how entries are ordered; operations on positions outside the pattern are rejected.",
  "every pattern and every history of entry updates",
  "Histories are unbounded.",
  ["Library/sparsematrix.c:addentry_sparsematrix","Library/sparsematrix.c:setentry_sparsematrix","Library/sparsematrix.c:clear_sparsematrix"])
p("Sparse matrix-vector products",
  "addeval_sparsematrix_avector computes y += alpha A x, addevaltrans_sparsematrix_avector y += alpha A^T x and add_sparsematrix_amatrix B += alpha A (or its transpose) for the represented matrix.",
  "every well-formed sparse matrix, every alpha and vectors (exact arithmetic)",
  "All sizes and patterns.",
  ["Library/sparsematrix.c:addeval_sparsematrix_avector","Library/sparsematrix.c:addevaltrans_sparsematrix_avector","Library/sparsematrix.c:add_sparsematrix_amatrix"])
p("Sparse norms accept rectangular matrices",
  "norm2_sparsematrix and norm2diff_sparsematrix can be applied to every sparse matrix. (False of the code: the column count is passed as the row count, so every non-square matrix violates a dimension assertion.)",
  "every sparse matrix size",
  "Tests use square matrices.",
  ["Library/sparsematrix.c:norm2_sparsematrix","Library/krylov.c:norm2_matrix"])
p("Dense kernels compute their formulas and nothing else",
  "copy, scale, clear, add_amatrix, addmul_amatrix (all four adjoint combinations), addeval/addevaltrans_amatrix_avector and dotprod compute the documented formula on every (sub)matrix, read and write only entries inside the given windows and never touch the gap between rows and leading dimension.",
  "every shape, every leading dimension, every window of every buffer, every scalar (exact arithmetic)",
  "All shapes and strides; stray writes into padding are invisible to result-checking tests.",
  ["Library/amatrix.c:addmul_amatrix","Library/amatrix.c:add_amatrix","Library/amatrix.c:addeval_amatrix_avector","Library/amatrix.c:copy_sub_amatrix"])
p("Sub-views alias exactly their window",
  "A view made by init_sub_amatrix/init_column_avector/init_sub_avector reads and writes entry (i,j) of the view at entry (i+roff, j+coff) of the source, nested views compose, and the created view never reaches outside its source.",
  "every source, every nesting of windows accepted by the assertions",
  "All nestings.",
  ["Library/amatrix.c:init_sub_amatrix","Library/avector.c:init_sub_avector","Library/avector.c:init_column_avector"])
p("Pointer matrices: shape",
  "init_pointer_amatrix(a, src, rows, cols) yields a matrix with the given number of rows and leading dimension over src; it has the requested number of columns exactly if rows = cols, because the code stores rows in cols (a defect: for cols < rows the matrix overruns a buffer of rows*cols entries).",
  "every rows, cols",
  "Only non-square uses reveal it.",
  ["Library/amatrix.c:init_pointer_amatrix"])
p("Triangular clears stay in bounds",
  "clear_lower_amatrix and clear_upper_amatrix zero exactly the (strictly) lower/upper triangle and leave the rest unchanged, with one exception: clear_upper_amatrix(strict=false) with rows = 0 and cols > 0 writes to a cell that does not belong to the matrix (a defect of the code).",
  "every shape and both values of strict",
  "Only the empty-row shape shows the wrap.",
  ["Library/amatrix.c:clear_lower_amatrix","Library/amatrix.c:clear_upper_amatrix"])
p("Resizing keeps the common part",
  "resizecopy_amatrix(a, rows, cols) keeps a[i,j] for all i,j in both the old and the new shape and sets every other entry to zero.",
  "every old and new shape",
  "All shapes.",
  ["Library/amatrix.c:resizecopy_amatrix"])
p("Random test matrices have their advertised property",
  "random_invertible_amatrix(a, alpha) yields a non-singular, random_selfadjoint_amatrix a self-adjoint and random_spd_amatrix a symmetric positive definite matrix for every alpha>0, whatever numbers the generator returns.",
  "every size and every outcome of the random generator",
  "Randomness: only a universally quantified argument covers all draws.",
  ["Library/amatrix.c:random_invertible_amatrix","Library/amatrix.c:random_selfadjoint_amatrix","Library/amatrix.c:random_spd_amatrix"])
p("Low-rank matrices act as A B^*",
  "addeval/addevaltrans_rkmatrix_avector, copy, clone, scale and add_rkmatrix_amatrix treat an rkmatrix exactly as the matrix A B^*; adjoint evaluation is the adjoint of evaluation.",
  "every shape, rank, scalar and vector (exact arithmetic)",
  "All shapes and ranks.",
  ["Library/rkmatrix.c:addeval_rkmatrix_avector","Library/rkmatrix.c:addevaltrans_rkmatrix_avector","Library/rkmatrix.c:copy_rkmatrix"])
p("Truncation rank meets the accuracy",
  "findrank_truncmode(tm, eps, sigma) returns the smallest k <= dim such that the discarded singular values satisfy the selected criterion (sum of squares <= eps^2, relative to the total in relative mode; or largest discarded value <= eps, relative to sigma[0]).",
  "every decreasing non-negative sigma, every eps >= 0, all four modes and tm = NULL (exact arithmetic)",
  "Quantifies over real sequences of any length.",
  ["Library/truncation.c:findrank_truncmode"])
p("H-matrix multiplication equals dense multiplication",
  "addeval_hmatrix_avector (addevaltrans_hmatrix_avector) computes y += alpha H x (H^* x) where H is the dense matrix obtained by placing every leaf at its row and column indices; entries of y are each updated, no other side effects; the two are adjoint to each other.",
  "every H-matrix over every pair of cluster trees, all vectors (exact arithmetic)",
  "All tree shapes, permutations and ranks.",
  ["Library/hmatrix.c:addeval_hmatrix_avector","Library/hmatrix.c:fastaddeval_hmatrix_avector","Library/hmatrix.c:addevaltrans_hmatrix_avector"])
p("Symmetric H-matrix multiplication",
  "addevalsymm_hmatrix_avector computes y += alpha S x where S is the self-adjoint matrix given by the lower block triangular part of H.",
  "every H-matrix with equal row/column tree whose diagonal leaves are dense (exact arithmetic)",
  "All tree shapes.",
  ["Library/hmatrix.c:addevalsymm_hmatrix_avector"])
p("H-matrices and block trees convert back and forth",
  "build_from_hmatrix_block(build_from_block_hmatrix(b,k)) reproduces b (structure, clusters and admissibility flags), and desc of the H-matrix equals desc of b.",
  "every block tree",
  "All tree shapes.",
  ["Library/hmatrix.c:build_from_block_hmatrix","Library/hmatrix.c:build_from_hmatrix_block"])
p("Reference counting of matrices and bases is safe",
  "Under every sequence of ref/unref operations performed by clients that own the references they release, an object is deleted exactly when its last reference disappears, its sub-objects are released exactly once, and no object is used after deletion. (Re-assigning a pointer to the object it already holds alone, ref_x(&p, p), is a use-after-free in the code.)",
  "every history of ref/unref operations over every object graph",
  "Histories are unbounded; use-after-free is invisible to value checks.",
  ["Library/hmatrix.c:ref_hmatrix","Library/hmatrix.c:unref_hmatrix","Library/clusterbasis.c:ref_clusterbasis","Library/clusterbasis.c:unref_clusterbasis","Library/h2matrix.c:ref_h2matrix"])
p("Uniform matrices are registered with their bases",
  "After every sequence of new/ref_row/ref_col/unref/del operations on uniform matrices, the row list of a cluster basis contains exactly the uniform matrices whose row basis it is, each once, with consistent forward and backward links (likewise for columns).",
  "every history of operations over any number of bases and uniform matrices",
  "Linked-list corruption depends on the removal order.",
  ["Library/uniform.c:ref_row_uniform","Library/uniform.c:unref_row_uniform","Library/uniform.c:ref_col_uniform","Library/uniform.c:unref_col_uniform"])
p("Releasing a uniform matrix's basis twice",
  "unref_row_uniform(u) on a uniform matrix that already gave up its row basis (as del_uniform does) has no effect exactly if u had no neighbour in the list of its basis; otherwise an assertion fails, because the links are not reset (a defect of the code). The same holds for columns and for del_uniform after a release.",
  "every state of the lists",
  "Needs a list with neighbours and a double release.",
  ["Library/uniform.c:unref_row_uniform","Library/uniform.c:del_uniform"])
p("Cluster basis transformations are adjoint and layout-safe",
  "forward_clusterbasis_avector writes, for each cluster, the coefficients V_t^* x|_t into its segment of the coefficient vector and a copy of the permuted leaf entries; backward_clusterbasis_avector adds sum_t V_t y_t to y; the segments of distinct clusters are disjoint and fill exactly ktree entries.",
  "every nested cluster basis of every shape and rank distribution (exact arithmetic)",
  "All tree shapes and rank distributions.",
  ["Library/clusterbasis.c:forward_clusterbasis_avector","Library/clusterbasis.c:backward_clusterbasis_avector","Library/clusterbasis.c:update_clusterbasis"])
p("Object counters balance",
  "Cluster basis transformations restore getactives_avector. (True of forward/backward_clusterbasis_avector and the nopermutation variants; false of forward_notransfer_clusterbasis_avector and backward_notransfer_clusterbasis_avector, which leave one vector registered per leaf cluster.)",
  "every cluster basis",
  "The leak is proportional to tree size and not checked by value tests.",
  ["Library/clusterbasis.c:forward_notransfer_clusterbasis_avector","Library/clusterbasis.c:backward_notransfer_clusterbasis_avector","Library/clusterbasis.c:forward_clusterbasis_avector","Library/avector.c:uninit_avector"])
p("H2-matrix multiplication equals dense multiplication",
  "addeval_h2matrix_avector computes y += alpha G x with G the dense matrix assembled from near-field leaves and V_t S_b W_s^* for far-field leaves; addevaltrans_h2matrix_avector uses G^*.",
  "every H2-matrix, all vectors (exact arithmetic)",
  "All tree shapes and ranks.",
  ["Library/h2matrix.c:addeval_h2matrix_avector","Library/h2matrix.c:fastaddeval_h2matrix_avector","Library/h2matrix.c:addevaltrans_h2matrix_avector"])
p("LR decomposition is exact when it succeeds",
  "lrdecomp_amatrix returns 0 iff no zero pivot occurs, and then the unit lower factor times the upper factor stored in a equals the original matrix; lrsolve_amatrix_avector then solves A x = b and its adjoint.",
  "every square matrix and leading dimension (exact arithmetic)",
  "All sizes.",
  ["Library/factorizations.c:lrdecomp_amatrix","Library/factorizations.c:lrsolve_amatrix_avector"])
p("Blocked and task-parallel LR agree",
  "lrdecomp_blocks_amatrix and lrdecomp_tasks_amatrix give the same factors as lrdecomp_amatrix whenever that succeeds, for every positive block size, the latter under every interleaving of the memory accesses of its tasks; the only exception is lrdecomp_tasks_amatrix with a block size equal to the size of the matrix, which factorizes twice.",
  "every size, block size and schedule",
  "Schedules are unbounded.",
  ["Library/factorizations.c:lrdecomp_blocks_amatrix","Library/factorizations.c:lrdecomp_tasks_amatrix"])
p("Triangular solves and products are inverse to each other",
  "lowersolve/uppersolve_amatrix_avector (unit and non-unit, plain and adjoint) solve the triangular system given by the referenced triangle, ignoring the other triangle, and invert lowereval/uppereval_amatrix_avector.",
  "every (rectangular) matrix with non-zero diagonal, every vector (exact arithmetic)",
  "All shapes.",
  ["Library/factorizations.c:lowersolve_amatrix_avector","Library/factorizations.c:uppersolve_amatrix_avector","Library/factorizations.c:lowereval_amatrix_avector","Library/factorizations.c:uppereval_amatrix_avector"])
p("Cholesky and LDL^T decompositions are exact when they succeed",
  "choldecomp_amatrix (ldltdecomp_amatrix) applied to a self-adjoint matrix returns success iff all pivots are positive (non-zero) and then L L^* (L D L^*) equals the original matrix, using only its lower triangle.",
  "every size (exact arithmetic)",
  "All sizes.",
  ["Library/factorizations.c:choldecomp_amatrix","Library/factorizations.c:ldltdecomp_amatrix"])
p("Hierarchical LR decomposition and solve",
  "With exact (non-truncating) block arithmetic, lrdecomp_hmatrix computes factors with L R = A for the represented matrices and lrsolve_hmatrix_avector solves A x = b.",
  "every H-matrix with square block structure (exact arithmetic, lossless truncation)",
  "All tree shapes.",
  ["Library/harith.c:lrdecomp_hmatrix","Library/harith.c:lrsolve_hmatrix_avector"])
p("Hierarchical addition and multiplication",
  "With lossless truncation add_hmatrix and addmul_hmatrix compute B += alpha A and Z += alpha X Y (all adjoint combinations) on the represented matrices for every combination of leaf types.",
  "every compatible triple of H-matrices (exact arithmetic, lossless truncation)",
  "All combinations of tree shapes and leaf types at every level.",
  ["Library/harith.c:add_hmatrix","Library/harith.c:addmul_hmatrix"])
p("Krylov steps keep residual and iterate consistent",
  "After init and any number of steps of CG/PCG/BiCG/BiCGStab/Uzawa the stored residual equals b - A x for the current iterate (in the variable documented for it).",
  "every matrix (callback), right-hand side, start vector and number of steps (exact arithmetic)",
  "Step counts unbounded.",
  ["Library/krylov.c:init_cg","Library/krylov.c:step_cg","Library/krylov.c:step_bicg","Library/krylov.c:step_bicgstab","Library/krylov.c:step_pcg"])
p("CG search directions are conjugate and CG terminates",
  "For a self-adjoint positive definite matrix the CG directions of all steps are pairwise A-conjugate, each step minimises the energy along its direction so the functional never increases, and the residual is zero after at most n steps.",
  "every spd matrix, right-hand side and start vector (exact arithmetic)",
  "Induction over all steps.",
  ["Library/krylov.c:step_cg","Library/krylov.c:evalfunctional_cg"])
p("Cluster tree files can be read back",
  "A cluster tree in a space of positive dimension whose clusters are the concatenations of their sons' segments can always be written by write_cdf_cluster, and read_cdf_cluster then yields a copy: the same paths lead to clusters with the same segments, dimensions and bounding boxes, desc counts the clusters, and the index array is the tree's part of the original. Trees written under a prefix into an open file by write_cdfpart_cluster are read back under that prefix, and whatever is stored under other prefixes is unaffected. Reading terminates for every file, whatever it contains. In dimension 0 writing fails (two unlimited dimensions).",
  "every tree, index array, prefix and file (contents of unwritten variables and memory arbitrary)",
  "All tree shapes and all file contents.",
  ["Library/cluster.c:write_cdf_cluster","Library/cluster.c:read_cdf_cluster","Library/cluster.c:write_cdfpart_cluster","Library/cluster.c:read_cdfpart_cluster"])
p("Adaptive cross approximation reproduces its crosses",
  "The result A B^* of decomp_fullaca_rkmatrix reproduces the original matrix exactly on every chosen pivot row and column, no entry of the remainder exceeds accur times the largest entry of the matrix, the number of crosses never exceeds the rank, and with accur = 0 the factorization is exact with k = rank. decomp_partialaca_rkmatrix, which sees the matrix only through a callback, also reproduces its pivot rows and columns, returns the global indices of its pivots, stops early only if the last cross is accur times smaller than the first, and is defined (no division by zero) whenever the rows of the matrix are linearly independent. Neither touches memory outside its arguments.",
  "every matrix, entry callback, accuracy, allocator and initial memory (exact arithmetic)",
  "All matrices and pivot sequences.",
  ["Library/aca.c:decomp_fullaca_rkmatrix","Library/aca.c:decomp_partialaca_rkmatrix","Library/aca.c:copy_lower_aca_amatrix","Library/aca.c:copy_upper_aca_amatrix"])
p("Mesh refinement keeps a conforming oriented mesh",
  "refine_tri2d maps a consistent triangulation to a consistent one: each triangle is replaced by four that tile it with the same orientation, each edge by two, boundary flags are inherited, counts are nv+ne, 2ne+3nt, 4nt, and the result passes the library's own consistency check.",
  "every consistent mesh and any number of refinements",
  "All meshes and refinement depths.",
  ["Library/tri2d.c:refine_tri2d","Library/tri2d.c:check_tri2d"])
p("Block tree levels, depth and sparsity",
  "enumerate_level_block gives for each block its distance from the root at the position of its number, getdepth_block returns the largest distance of a leaf, and compute_csp_block returns the largest number of blocks that share one row or one column cluster.",
  "every block tree",
  "All tree shapes; the counts are accumulated through numbers derived from desc fields.",
  ["Library/block.c:enumerate_level_block","Library/block.c:getdepth_block","Library/block.c:compute_csp_block"])
p("Norm estimates never exceed the spectral norm",
  "norm2_matrix (norm2diff_matrix) returns normally for every matrix-vector callback that multiplies by a matrix and its transpose, and the value is a lower bound of the spectral norm of the matrix (of the difference).",
  "every matrix, every start vector delivered by the random generator (exact real arithmetic)",
  "All matrices and random draws.",
  ["Library/krylov.c:norm2_matrix","Library/krylov.c:norm2diff_matrix"])
p("BiCG is biorthogonal and terminates",
  "For real fields, as long as step_bicg does not break down, the residuals r and rt are biorthogonal and the search directions p and pt are biconjugate, at most n steps can be carried out, and after n steps x solves the system; for complex fields the step uses a conjugated coefficient and is wrong already for one equation.",
  "every matrix, start vector and number of steps (exact arithmetic)",
  "Induction over all steps; the statement relates the vectors of all pairs of steps.",
  ["Library/krylov.c:init_bicg","Library/krylov.c:step_bicg"])
p("Mesh construction from triangles",
  "Adding triangles (three different existing vertices each) to a tri2dbuilder and calling buildmesh_tri2dbuilder yields a mesh with exactly these vertices and triangles, corners in the given order, each pair of neighbouring vertices joined by exactly one edge, boundary flags exactly on the edges with one triangle and their vertices, boundary edges running counter-clockwise around their triangle, accepted by check_tri2d; it is rejected by an assertion iff some edge has more than two triangles. fixnormals_tri2d changes only the direction of boundary edges, and refine_tri2d keeps the orientation.",
  "every vertex number, coordinates and list of triangles; every consistent mesh",
  "All meshes and insertion orders.",
  ["Library/tri2d.c:addtriangle_tri2dbuilder","Library/tri2d.c:buildmesh_tri2dbuilder","Library/tri2d.c:fixnormals_tri2d"])
p("Householder factorizations and solvers",
  "qrdecomp_amatrix, qrdecomp_pivot_amatrix and qrdecomp_rank_amatrix overwrite any matrix by the triangular factor and the reflections of a unitary Q such that Q R is the (permuted) matrix; pivots are recorded and every diagonal element dominates the columns behind it; the rank variant discards no more than the truncation strategy admits. qreval applies Q or its adjoint, qrexpand computes columns of Q, qrsolve solves with Q R, qrinvert computes the inverse; no other memory changes.",
  "every matrix, scaling vector, truncation mode and tolerance, real and complex fields (exact arithmetic)",
  "All sizes and all entries, including zero columns and rank-deficient matrices; accuracy tests sample a few matrices.",
  ["Library/factorizations.c:qrdecomp_amatrix","Library/factorizations.c:qrdecomp_pivot_amatrix","Library/factorizations.c:qrdecomp_rank_amatrix","Library/factorizations.c:qreval_amatrix_avector","Library/factorizations.c:qreval_amatrix","Library/factorizations.c:qrsolve_amatrix_avector","Library/factorizations.c:qrinvert_amatrix","Library/factorizations.c:qrexpand_amatrix"])
p("Triangular parts and their products",
  "copy_lower_amatrix and copy_upper_amatrix copy the lower or upper trapezoidal part of a matrix (optionally with unit diagonal) and fill up with zeros exactly where documented; triangularaddmul_amatrix adds the product of two triangular matrices, lower or upper, plain or adjoint, refers only to the selected triangles and fails an assertion if the dimensions do not match; nothing else changes.",
  "every pair of disjoint windows of any dimensions and leading dimensions, every content, all flags",
  "All dimensions, including trapezoidal and empty ones.",
  ["Library/factorizations.c:copy_lower_amatrix","Library/factorizations.c:copy_upper_amatrix","Library/factorizations.c:triangularaddmul_amatrix"])
p("Orthogonalization, weights and products of cluster bases",
  "ortho_clusterbasis turns every nested cluster basis into a nested basis of the same tree with orthonormal matrices, ranks that do not grow and never exceed the cluster size, correct counters, and (exact zero test) the same span, with the change of basis recorded in the cluster operator; weight_clusterbasis_clusteroperator yields C_t^*C_t = V_t^*V_t for all clusters, check_ortho_clusterbasis is zero exactly for orthonormal bases and in general the largest local deviation, compress_clusterbasis_amatrix computes V^*X, basisproduct_clusteroperator computes V_t^*W_t for all clusters even if one tree ends before the other.",
  "every nested cluster basis over every cluster tree, every content of new memory, real and complex fields (exact arithmetic)",
  "All tree shapes, ranks and matrices.",
  ["Library/clusterbasis.c:ortho_clusterbasis","Library/clusterbasis.c:weight_clusterbasis_clusteroperator","Library/clusterbasis.c:check_ortho_clusterbasis","Library/clusterbasis.c:compress_clusterbasis_amatrix","Library/clusteroperator.c:basisproduct_clusteroperator"])
p("Projection into other cluster bases",
  "add_projected_uniform, project_inplace_uniform and build_projected_h2matrix switch to new row and column bases by multiplying the coupling matrices by the matrices of the cluster operators, in all combinations of kept and changed bases and without operators for bases that are kept; block structure and dense leaves do not change; the represented matrix stays the same if the new bases contain the old ones, in particular after ortho_clusterbasis, and every leaf becomes its best Frobenius-norm approximation if the new bases are orthonormal and the operators are the products of the bases.",
  "every consistent H2-matrix, all nested bases for the same cluster trees, all operators with matching dimensions, real and complex fields (exact arithmetic)",
  "All block structures, ranks and matrices; optimality ranges over all coupling matrices.",
  ["Library/uniform.c:add_projected_uniform","Library/uniform.c:project_inplace_uniform","Library/h2compression.c:build_projected_h2matrix"])
p("Orthogonal projection of dense matrices and H-matrices into H2-matrix spaces",
  "collectdense_h2matrix computes V^* A W for arbitrary nested row and column bases (also when one tree ends before the other); project_amatrix_h2matrix and project_hmatrix_h2matrix keep bases and structure and turn every leaf into the projection of the given matrix; build_projected_amatrix_h2matrix and build_projected_hmatrix_h2matrix construct a consistent H2-matrix with the structure of the block tree or H-matrix and these leaves; with orthonormal bases no H2-matrix with the same bases and structure is closer in the Frobenius norm, and matrices from the H2-matrix space are reproduced exactly.",
  "all dense matrices, H-matrices, block trees, nested bases, ranks and index permutations, real and complex fields (exact arithmetic); optimality over all H2-matrices of the same structure",
  "All trees and matrices; optimality quantifies over an infinite set of competitors.",
  ["Library/h2matrix.c:collectdense_h2matrix","Library/h2matrix.c:project_amatrix_h2matrix","Library/h2matrix.c:project_hmatrix_h2matrix","Library/uniform.c:add_rkmatrix_uniform","Library/h2compression.c:build_projected_amatrix_h2matrix","Library/h2compression.c:build_projected_hmatrix_h2matrix"])
p("Kernel matrices and tensor interpolation",
  "new_kernelmatrix provides pairwise different interpolation points; fillN_kernelmatrix fills a dense matrix with kernel values of the indexed points; fillS_kernelmatrix fills a coupling matrix with kernel values in tensor interpolation points, in any dimension; fill_clusterbasis_kernelmatrix produces a nested basis that represents, in every cluster of the tree, the tensor Lagrange polynomials of that cluster evaluated in the points; fill_h2matrix_kernelmatrix makes dense blocks equal to the kernel matrix and uniform blocks equal to the interpolated kernel, so that for kernels that are polynomials of degree less than m in each variable the H2-matrix is exactly the kernel matrix.",
  "all dimensions, interpolation orders, kernels, point sets, index permutations, cluster trees with non-degenerate boxes, H2-matrix structures, real and complex kernels (exact arithmetic)",
  "Quantifies over all kernels, points, trees, dimensions and orders; nested interpolation is an identity of polynomials.",
  ["Library/kernelmatrix.c:new_kernelmatrix","Library/kernelmatrix.c:fillN_kernelmatrix","Library/kernelmatrix.c:fillS_kernelmatrix","Library/kernelmatrix.c:fillV_kernelmatrix","Library/kernelmatrix.c:fillE_kernelmatrix","Library/kernelmatrix.c:fill_clusterbasis_kernelmatrix","Library/kernelmatrix.c:fill_h2matrix_kernelmatrix"])
p("Solvers based on the conjugate gradient method",
  "solve_cg_avector and solve_pcg_avector, for a positive definite matrix (and preconditioner) and non-negative tolerance: they never divide by zero, return after at most n steps (fewer than maxiter steps if maxiter is not zero), the returned x has a true residual of at most eps times the norm of b unless the step limit was reached, x minimises the energy in the Krylov space of the returned dimension, no smaller Krylov space would have reached the tolerance, and all memory except x is as before.",
  "all dimensions, positive definite matrices and preconditioners, callbacks satisfying their documented contract, right-hand sides, initial guesses, tolerances, limits, placements of the vectors in memory, real and complex fields (exact arithmetic)",
  "Quantifies over all matrices, vectors and callbacks; optimality over an infinite set.",
  ["Library/krylovsolvers.c:solve_cg_avector","Library/krylovsolvers.c:solve_pcg_avector","Library/avector.c:norm2_avector"])
p("Truncated low-rank arithmetic",
  "trunc_rkmatrix, add_rkmatrix, add_amatrix_rkmatrix and merge_rkmatrix (truncation mode Frobenius or spectral, absolute or relative, or none given): they never fail on operands with matching sizes, the result has factors with exactly k columns, represents the matrix, the sum or the merged matrix with the demanded accuracy, and no matrix of a lower rank has this accuracy (so the rank never exceeds the sizes or the rank of an exact representation). With tolerance zero the operations are exact, so that H-matrix arithmetic with real coefficients is exact as well. Exception proved as a defect: add_amatrix_rkmatrix with complex coefficients and fewer rows than columns adds conj(alpha) a.",
  "all sizes, ranks (also exceeding the sizes), entries, truncation modes, non-negative tolerances, contents of uninitialised memory, real and complex fields, all functions computing singular value decompositions",
  "Optimality is a statement about all matrices of lower rank; four algorithmic branches depending on the sizes.",
  ["Library/harith.c:trunc_rkmatrix","Library/harith.c:add_rkmatrix","Library/harith.c:add_amatrix_rkmatrix","Library/harith.c:merge_rkmatrix","Library/truncation.c:findrank_truncmode"])
p("Coarsening of H-matrices",
  "coarsen_hmatrix: for every H-matrix it succeeds and returns an H-matrix for the same clusters in which some off-diagonal subdivided blocks are replaced by low-rank blocks and everything else is unchanged. The storage never increases, and after a recursive run no off-diagonal block with leaf sons is left for which a low-rank representation of the demanded accuracy would be smaller. With absolute tolerances the error is at most the tolerance times the number of subdivided blocks, in the Frobenius norm relative error at most (1+eps)^p - 1 for p nested levels, and with the tolerance zero the matrix is unchanged.",
  "all H-matrices (depths, arities, dense and low-rank leaves of any rank), truncation modes, tolerances, recursive or not, element sizes",
  "Induction over the block tree; error accumulation and minimality are statements about all matrices.",
  ["Library/hcoarsen.c:coarsen_hmatrix"])
p("Cholesky decomposition of H-matrices",
  "choldecomp_hmatrix: for every H-matrix with a symmetric subdivision of the diagonal blocks and a real diagonal, the call succeeds if and only if the self-adjoint matrix given by the lower triangle is positive definite, and otherwise stops with the assertion about the pivots. On success the lower triangle holds a factor L with real positive diagonal and L L^* equal to the matrix, the block structure is unchanged, and the strictly upper triangle has no influence. Together with cholsolve_hmatrix_avector it solves A x = b in the original numbering. addmul_lower_hmatrix adds the lower triangular part of alpha op(X) op(Y), unless X is transposed and Y is not; in this case it stops with a failing assertion for all subdivided matrices whose clusters have at least two sons.",
  "all cluster trees and block structures (depths, arities, dense and low-rank leaves), all entries, factors alpha, transposition flags, right-hand sides and permutations",
  "Success exactly for positive definite matrices and the identity L L^* = A are statements about all matrices and block trees; the defective branch is never used by the library itself.",
  ["Library/harith.c:choldecomp_hmatrix","Library/harith.c:addmul_lower_hmatrix","Library/harith.c:add_lower_amatrix_hmatrix","Library/harith.c:add_lower_rkmatrix_hmatrix","Library/harith.c:cholsolve_hmatrix_avector"])
p("GMRES",
  "init_gmres, step_gmres and finish_gmres (and the preconditioned variants): as long as each step reduces the minimal residual and no step halves its square exactly, the residual norm reported after k steps is the minimum over the Krylov space of dimension k, finish sets x to a minimiser in this space, and nothing but the vectors of the method changes. solve_gmres_avector and solve_pgmres_avector stop with the tolerance or the step limit reached, return an optimal vector of the last cycle, change only x and release all auxiliary memory. Four deviations are proved: if a step exactly halves the squared minimal residual, the rotation is omitted, the reported residual is zero and x is not improved; there is no protection against more steps than unknowns, and the step n + 1 writes out of bounds; with kmax = 1 the solver performs all permitted iterations without changing x; in the complex build the rotations are not unitary.",
  "all dimensions, matrices and preconditioners (given by callbacks that satisfy the matrix-vector contract), right-hand sides, initial vectors, tolerances, restart lengths and step limits, all contents of uninitialised memory",
  "Minimality over a Krylov space and the agreement of the recursively computed residual with the true one quantify over all matrices, and the defective cases have measure zero or need complex arithmetic.",
  ["Library/krylov.c:init_gmres","Library/krylov.c:step_gmres","Library/krylov.c:finish_gmres","Library/krylov.c:residualnorm_gmres","Library/krylov.c:init_pgmres","Library/krylov.c:step_pgmres","Library/krylov.c:finish_pgmres","Library/krylovsolvers.c:solve_gmres_avector","Library/krylovsolvers.c:solve_pgmres_avector"])
p("Inversion of H-matrices",
  "If the leading principal submatrices that end at the dense diagonal leaves are invertible (in particular if the matrix is positive definite) and the truncated operations are lossless, invert_hmatrix overwrites an H-matrix by its inverse (A A' = A' A = I) for every block structure with symmetrically subdivided diagonal blocks and dense diagonal leaves, whatever the workspace contains; the block structures of the matrix and of the workspace stay the same, and no assertion fails. A low-rank block on the diagonal leads to a failing assertion.",
  "all block structures (any depth, any number of sons), all positions of low-rank and dense off-diagonal blocks, all entries, all contents of the workspace, real and complex arithmetic",
  "The result is the inverse for all matrices and block structures; tests can only check residuals for a few matrices, and the admissible block structures are unbounded.",
  ["Library/harith.c:invert_hmatrix","Library/hmatrix.c:clear_hmatrix","Library/factorizations.c:qrinvert_amatrix","Library/harith.c:addmul_hmatrix"])
p("Norm estimates: exact value, upper and lower bounds, no side effects",
  "norm2_matrix, norm2diff_matrix, norm2diff_pre_matrix and norm2diff_id_pre_matrix return the square root of the quotient of the norms of the last two of twenty vectors of the power iteration with M^* M, where M is A, A - B, B - A or B^-1 A - I, started with the random vector; the result never exceeds the spectral norm, it is never below ||M x0|| / ||x0|| for the starting vector x0, it is zero for the zero matrix, no division by zero occurs even if the iteration reaches zero, and all memory is afterwards what it was before (nothing leaked, the matrices unchanged). norm2_amatrix and norm2diff_amatrix are instances.",
  "all numbers of rows and columns, all matrices, all starting vectors, real and complex arithmetic, all callbacks that perform a matrix-vector product",
  "The bounds hold for every matrix and every starting vector; a test compares with a norm it would have to know, and only for a few matrices.",
  ["Library/krylov.c:norm2_matrix","Library/krylov.c:norm2diff_matrix","Library/krylov.c:norm2diff_pre_matrix","Library/krylov.c:norm2diff_id_pre_matrix","Library/amatrix.c:norm2_amatrix","Library/amatrix.c:norm2diff_amatrix","Library/avector.c:random_avector"])
p("Domain decomposition clustering separates the domains",
  "Whenever build_adaptive_dd_cluster or build_regular_dd_cluster returns, the index array was only permuted, the tree is a consistent cluster tree with exact descendant counts, tight boxes and small leaves, the second domain son of every cluster is not connected (by the sparse matrix) to the first one, all clusters of the third son are interface clusters and each of their indices is connected to the first son, and the flag array is zero again. The adaptive version always stops for dim >= 2, either with a tree or at assert(0); the assertion fails only if the connectivity does not allow a separation, and does fail if all indices are connected. With dim = 1 interface clusters larger than the leaf size make it recurse forever. In block trees built with admissible_dd_cluster for a symmetric pattern, a block that is admissible without being geometrically admissible contains no matrix entry.",
  "all point sets, index sets, leaf sizes, sparse matrices in compressed-row format, directions and scratch boxes; all admissibility conditions",
  "Separation must hold for every connectivity graph and every point set; a test sees some meshes only, and on those the failing assertion may never be reached.",
  ["Library/ddcluster.c:build_adaptive_dd_cluster","Library/ddcluster.c:build_regular_dd_cluster","Library/ddcluster.c:build_adaptive_interface_cluster","Library/ddcluster.c:build_regular_interface_cluster","Library/ddcluster.c:admissible_dd_cluster","Library/block.c:build_nonstrict_block","Library/block.c:build_strict_block"])
p("Multiplication by triangular H-matrices and evaluation of LR and Cholesky factorizations",
  "triangularmul_hmatrix_amatrix and triangularmul_hmatrix overwrite a dense matrix or an H-matrix X (or its adjoint) by op(T) op(X) for a lower or upper triangular part T (unit or not) of an H-matrix or its adjoint; triangulareval_hmatrix_avector, lreval_hmatrix_avector and choleval_hmatrix_avector do the same for vectors in the original numbering of the degrees of freedom: after lrdecomp_hmatrix, lreval computes A x or A^* x, after a Cholesky factorization choleval computes A x. Nothing but the operand changes and no call fails, with one exception: for a lower triangular matrix and the adjoint of X the program asserts that the number of block ROWS of X matches (harith.c:5699), so it fails for legal operands.",
  "all H-matrix block structures with symmetric dense diagonal, all sizes, all flags, all lossless truncations, all permutations, all memory contents",
  "The recursion overwrites the operand in place, so the order of the block updates must be right for every tree and every combination of the four flags; tests fix one tree and never use a rectangular block pattern.",
  ["Library/harith.c:triangularmul_hmatrix_avector","Library/harith.c:triangulareval_hmatrix_avector","Library/harith.c:triangularmul_hmatrix_amatrix","Library/harith.c:triangularmul_hmatrix","Library/harith.c:lreval_hmatrix_avector","Library/harith.c:choleval_hmatrix_avector","Library/harith.c:lowereval_nt_hmatrix"])
p("Eigenvalues of symmetric tridiagonal matrices",
  "qrstep_tridiag with any shift performs an exact orthogonal similarity transformation of the tridiagonal matrix and multiplies Q by the same orthogonal matrix from the right. sb_muleig_tridiag returns the diagonal sorted in ascending order and Q multiplied by an orthogonal matrix W; if it used fewer than maxiter steps, the subdiagonal is zero and W diag(d) W^T differs from the given matrix by at most ((1+4 eps)^(iter+n-1) - 1) times its spectral norm. eig_tridiag overwrites Q by W and returns zero only in this case. No memory outside the arrays is touched. The only other outcome of a call with a step limit is a division by zero in the Wilkinson shift, which cannot happen for (sufficiently) definite matrices, but does happen for the zero matrix.",
  "all sizes, all real diagonals and subdiagonals, all shifts, all eps > 0, all step limits, with and without a (real or complex) matrix Q",
  "The error analysis must hold for every sequence of deflations and block splittings; tests see finitely many matrices and cannot establish a backward error bound, and the division by zero needs an exactly vanishing block.",
  ["Library/eigensolvers.c:qrstep_tridiag","Library/eigensolvers.c:sb_muleig_tridiag","Library/eigensolvers.c:muleig_tridiag","Library/eigensolvers.c:eig_tridiag","Library/eigensolvers.c:givens"])
p("Tridiagonalization of self-adjoint matrices",
  "For every self-adjoint matrix A, tridiagonalize_amatrix (version without BLAS) returns normally without touching memory outside the arrays, Q is unitary, the sub- and superdiagonal of T coincide and are non-negative, and T is unitarily similar to A up to 2(n-1) sqrt(H2_ALMOST_ZERO) in the spectral norm. If no subdiagonal entry except the last one vanishes, A = Q T Q^*. If a column vanishes during the elimination, Q may be the wrong matrix: a sign collected before the column is applied again behind it (witness). Calling the function without Q is undefined.",
  "all sizes, all real or complex self-adjoint matrices, all thresholds",
  "The factorization must hold for every matrix; the wrong sign appears only for matrices with exactly vanishing columns, which random tests do not produce.",
  ["Library/eigensolvers.c:sb_tridiagonalize_amatrix","Library/eigensolvers.c:tridiagonalize_amatrix"])
p("Eigenvalues and eigenvectors of dense self-adjoint matrices",
  "For every self-adjoint matrix, eig_amatrix (version without BLAS) either divides by zero or returns ascending real numbers in lambda (enlarged if too short) and a unitary Q. If it returns zero, the numbers are the eigenvalues of a matrix within delta + ((1+4 eps)^(33n) - 1)(|A| + delta) of A, delta = 2(n-1) sqrt(H2_ALMOST_ZERO). The columns of Q are the corresponding eigenvectors, up to the same error, if the tridiagonal matrix is unreduced, e.g., if the first unit vector is cyclic; otherwise they can be wrong (witness). Definite matrices never cause a division by zero; zero matrices always do. Q == NULL is undefined although documented.",
  "all sizes, all real or complex self-adjoint matrices, all thresholds",
  "Backward error bounds quantify over all matrices and all courses of the iteration; wrong eigenvectors appear only for matrices with exactly vanishing columns.",
  ["Library/eigensolvers.c:eig_amatrix","Library/eigensolvers.c:sb_eig_amatrix","Library/eigensolvers.c:init_tridiag","Library/realavector.c:resize_realavector"])
p("Truncation of cluster bases",
  "For every cluster basis over its entire cluster tree, with or without total weights and local weights, every truncation mode and tolerance, truncate_clusterbasis succeeds; the new basis is orthonormal, no rank grows or exceeds the size of its cluster, the stored coefficient counts are right, and old2new contains Q_t^* V_t. For absolute errors in the Frobenius or spectral norm, in each cluster |(V_t - Q_t Q_t^* V_t) C_t^*|^2 is at most the squared tolerance of the cluster times the sum of (zeta_level/zeta_age)^(2d) over all descendants, C_t being the local or total weight or, without weights, the identity. With tolerance zero and no weights, V_t = Q_t C_t and an H2-matrix is not changed by switching to the truncated bases. A basis that ends at a cluster with sons violates an assertion.",
  "all cluster trees, bases, ranks, weights, modes and tolerances; real and complex",
  "The error bound is a sum over all levels of a nested basis of arbitrary depth and depends on the weights of all ancestors.",
  ["Library/h2compression.c:truncate_clusterbasis","Library/h2compression.c:truncate_pre","Library/h2compression.c:truncate_post"])
p("Local and total weights of H2-matrices",
  "For every H2-matrix with bases over the entire cluster trees, weights of both bases, and row and column operators with arbitrary old weights, localweights_h2matrix succeeds and adds every uniform block exactly once to the weights of its row and its column cluster: C'_t^* C'_t = C_t^* C_t + sum over blocks b=(t,s) of alpha_b^2 S_b W_s^* W_s S_b^* (columns: V_t S_b), where alpha_b is 1 or, with tm->blocks, the reciprocal of the Frobenius or spectral norm of the block. accumulate_clusteroperator keeps the weight of the root and adds zeta_age^2 times the father's accumulated weight, carried over by the transfer matrix, to each son. totalweights_h2matrix yields both and its results meet the nestedness condition needed for the truncation error bound. Null pointers for the basis weights (documented: orthonormal bases) are dereferenced for every matrix, so rbortho or cbortho = true never works.",
  "all H2-matrices (any block structure with row and/or column subdivision), ranks, old weights, truncation modes; real and complex",
  "The sum ranges over all blocks of trees of arbitrary shape, visited along cyclic diagonals.",
  ["Library/h2compression.c:localweights_h2matrix","Library/h2compression.c:localweights2","Library/h2compression.c:accumulate_clusteroperator","Library/h2compression.c:totalweights_h2matrix","Library/h2matrix.c:iterate_h2matrix","Library/clusteroperator.c:enumerate_clusteroperator"])
p("Compression of H2-matrices: error control, and where the weights are exchanged",
  "For every H2-matrix with bases over the entire cluster trees, computing basis weights, local weights, truncating the row basis with the weights of the rows and the column basis with the weights of the columns, and projecting (the sequence that compress_h2matrix_h2matrix documents) succeeds, gives orthonormal bases, keeps the block structure and the dense blocks, bounds the (scaled) error of each uniform block in the Frobenius or spectral norm by the tolerances of its row and column cluster, and in the Frobenius norm without block scaling bounds the error of the entire matrix. compress_h2matrix_h2matrix itself passes the weights exchanged: for Hermitian matrices the bounds hold; if row and column basis have different clusters or root ranks an assertion is violated for every input; for one shared basis, every uniform block whose row cluster (with its predecessors) has no blocks in the corresponding column is lost for every tolerance, so that there are matrices that are replaced by zero with eps = 0; with rbortho or cbortho a null pointer is dereferenced.",
  "all H2-matrices, cluster trees, ranks, truncation modes, zeta_level >= 0, zeta_age > 0, eps >= 0; real and complex",
  "The error bound holds for every matrix and every tolerance, and the failure for whole families of inputs.",
  ["Library/h2compression.c:compress_h2matrix_h2matrix","Library/clusterbasis.c:clonestructure_clusterbasis","Library/h2compression.c:localweights_h2matrix","Library/truncation.h:truncmode","Library/h2compression.c:truncate_clusterbasis","Library/h2matrix.c:build_projected_h2matrix"])
p("Piecewise linear finite elements on triangular meshes",
  "new_tri2dp1 numbers the inner vertices (degrees of freedom) and the boundary vertices consecutively; build_tri2dp1_sparsematrix and build_tri2dp1_interaction_sparsematrix create zero matrices with exactly the positions of vertices of a common triangle (and fail their assertion if there is no inner vertex); assemble_tri2dp1_laplace_sparsematrix and assemble_tri2dp1_mass_sparsematrix add exactly the integrals of products of gradients and of nodal basis functions, so x^T A y is the energy of the piecewise linear functions, and the system matrix is symmetric and positive definite if every inner vertex is linked to the boundary; triangles of area zero divide by zero. assemble_tri2dp1_dirichlet_avector stores the boundary values; assemble_tri2dp1_functional_avector computes the load vector by the edge midpoint rule, exact for affine functions; normmax_tri2dp1 is the maximum of the nodal errors; norml2_tri2dp1 the L2 norm by the edge midpoint rule, exact without a given function. build_tri2dp1_prolongation_sparsematrix represents coarse functions on the refined mesh, and the coarse system matrix is P^T A P with the fine one.",
  "all consistent meshes, all functions, all coefficient vectors",
  "The identities hold for every mesh and every pair of basis functions; tests look at convergence on a few meshes.",
  ["Library/tri2dp1.c:new_tri2dp1","Library/tri2dp1.c:build_tri2dp1_sparsematrix","Library/tri2dp1.c:build_tri2dp1_interaction_sparsematrix","Library/tri2dp1.c:build_tri2dp1_prolongation_sparsematrix","Library/tri2dp1.c:assemble_tri2dp1_laplace_sparsematrix","Library/tri2dp1.c:assemble_tri2dp1_mass_sparsematrix","Library/tri2dp1.c:assemble_tri2dp1_dirichlet_avector","Library/tri2dp1.c:assemble_tri2dp1_functional_avector","Library/tri2dp1.c:normmax_tri2dp1","Library/tri2dp1.c:norml2_tri2dp1"])
p("Gauss quadrature",
  "assemble_gauss computes m nodes and weights on [-1,1]: the weights are non-negative with sum 2, the nodes ascend, entries beyond m are untouched, and the rule integrates every polynomial of degree less than 2m up to an explicit multiple of the backward error of the eigenvalue solver; with an exact eigenvalue decomposition it is exact for all these polynomials, all weights are positive, the nodes are distinct and in the open interval, and nodes and weights are determined uniquely. With the library's own solver the function returns such a rule, divides by zero, or fails its assertion. m = 0 writes to memory that is not allocated.",
  "all numbers of nodes, all polynomials of degree less than 2m, all eigenvalue solvers",
  "Exactness ranges over all orders and polynomials; tests check some orders.",
  ["Library/gaussquad.c:assemble_gauss"])
p("Triangulated surfaces",
  "check_surface3d reports no problem if and only if all indices are in bounds and every edge of a triangle joins the right corners; isclosed_surface3d and isoriented_surface3d answer exactly the documented questions, and both succeed if and only if every edge is passed once in each direction; prepare_surface3d computes unit normals, twice the areas, and the extreme heights, and divides by zero exactly for degenerate triangles; translate_surface3d changes only coordinates; scale_surface3d fits the extent of the surface, but uses one offset for all coordinates, so the result can leave the box; merge_surface3d accesses memory behind the arrays of edges, and gives the disjoint union (without mesh widths) if the allocator provides slack.",
  "all surfaces, all translations, all boxes, all pairs of surfaces",
  "Surfaces are arbitrary meshes; the out-of-bounds access is invisible with most allocators.",
  ["Library/surface3d.c:new_surface3d", "Library/surface3d.c:prepare_surface3d", "Library/surface3d.c:check_surface3d", "Library/surface3d.c:isclosed_surface3d", "Library/surface3d.c:isoriented_surface3d", "Library/surface3d.c:scale_surface3d", "Library/surface3d.c:translate_surface3d", "Library/surface3d.c:merge_surface3d"])
p("Red refinement of surfaces",
  "For every consistent surface mesh with non-degenerate triangles, refine_red_surface3d succeeds (no assertion, abort, or out-of-bounds access): old vertices keep their numbers and coordinates, vertex vertices+f is the midpoint of edge f, edges 2f and 2f+1 are its halves, triangles 4i to 4i+3 refine triangle i with the same orientation and normal, a quarter of the area and half the height. The result is consistent, and closed or closed and oriented if and only if the original is, so refinement can be repeated any number of times.",
  "all consistent surface meshes, any number of refinement steps",
  "The four cases of the orientation of two edges and all numberings matter; tests refine a few meshes.",
  ["Library/surface3d.c:refine_red_surface3d"])
p("Triangular solves with H2-matrices",
  "For every H2-matrix with nested cluster bases whose diagonal blocks are subdivided down to dense leaves, lowersolve_h2matrix_avector and uppersolve_h2matrix_avector replace the vector by the exact solution of the system with the lower or upper triangular part of the represented matrix or its adjoint, with or without unit diagonal, if the diagonal is non-zero or unit. lrsolve_h2matrix_avector and cholsolve_h2matrix_avector solve the system with the product of the factors in the original numbering. No assertion fails, nothing but the vector changes, and all temporary vectors are released. A diagonal leaf that is not dense fails an assertion.",
  "all H2-matrices, block and cluster trees, nested bases, right-hand sides, flags",
  "All shapes of trees, ranks and vectors matter; a test uses a few matrices.",
  ["Library/h2arith.c:lowersolve_h2matrix_avector", "Library/h2arith.c:uppersolve_h2matrix_avector", "Library/h2arith.c:lrsolve_h2matrix_avector", "Library/h2arith.c:cholsolve_h2matrix_avector"])
p("Multiplication by one cluster basis matrix and by uniform matrices",
  "For every nested cluster basis, compress_clusterbasis_avector stores V_t^* x in the first k entries of its result, expand_clusterbasis_avector adds V_t y, addeval_clusterbasis_avector and addevaltrans_clusterbasis_avector compute y += alpha V_t x and y += alpha V_t^* x, and mvm_uniform_avector computes y += alpha V S W^* x or its adjoint. kbranch entries of temporary storage, as computed by update_tree_clusterbasis, suffice. No assertion fails, nothing else changes, source and target of the last three functions may overlap, and temporary vectors are released.",
  "all cluster bases, ranks, coupling matrices, vectors, factors",
  "The sons of a cluster share the temporary storage; all trees and ranks matter.",
  ["Library/clusterbasis.c:compress_clusterbasis_avector", "Library/clusterbasis.c:expand_clusterbasis_avector", "Library/clusterbasis.c:addeval_clusterbasis_avector", "Library/clusterbasis.c:addevaltrans_clusterbasis_avector", "Library/uniform.c:mvm_uniform_avector"])
p("Transformations of matrices by cluster bases",
  "For every nested cluster basis, forward_clusterbasis_amatrix and forward_clusterbasis_trans_amatrix store the coefficients of every column of Xp, respectively of the adjoint of Xp, in the columns of Xt; backward_clusterbasis_amatrix adds the vectors represented by the columns of Yt to the columns of Yp; compress_clusterbasis_amatrix stores V_t^* Xp in the first k rows of Xt. No assertion fails, nothing else changes, no submatrix object is leaked. backward_clusterbasis_trans_amatrix does the same with the adjoint of Yp only for clusters without sons: with sons an assertion fails unless the number of rows is the size of the first son, and then the result can be wrong. compress_parallel_clusterbasis_amatrix can give wrong results even without parallelism.",
  "all cluster bases, ranks, matrices, numbers of columns",
  "All tree shapes, ranks and leading dimensions matter; the two wrong functions are called with matching arguments only.",
  ["Library/clusterbasis.c:forward_clusterbasis_amatrix", "Library/clusterbasis.c:forward_clusterbasis_trans_amatrix", "Library/clusterbasis.c:backward_clusterbasis_amatrix", "Library/clusterbasis.c:backward_clusterbasis_trans_amatrix", "Library/clusterbasis.c:compress_clusterbasis_amatrix", "Library/clusterbasis.c:compress_parallel_clusterbasis_amatrix"])
p("Filling H-matrices",
  "clear_hmatrix gives the zero matrix; identity_hmatrix gives the identity whenever the leaves meeting the diagonal are dense and belong to equal clusters, and a low-rank leaf on the diagonal becomes zero; clear_upper_hmatrix clears exactly the entries above the diagonal (with the diagonal if not strict) and the low-rank leaves on the diagonal of the block structure; copy_hmatrix makes the target represent the matrix of a source with the same block structure. copy_sparsematrix_hmatrix stores the entry of the sparse matrix for the row and column index of every position of a dense leaf, keeps low-rank leaves and touches no other memory, provided the dense leaves are stored without gaps; for a leaf that is a window into a larger matrix it overwrites foreign entries and keeps stale ones.",
  "all H-matrices, block structures, sparse matrices in compressed-row format, index arrays",
  "The functions recurse over arbitrary block structures; tests only see standard ones, without windows.",
  ["Library/hmatrix.c:clear_hmatrix", "Library/hmatrix.c:clear_upper_hmatrix", "Library/hmatrix.c:copy_hmatrix", "Library/hmatrix.c:identity_hmatrix", "Library/hmatrix.c:copy_sparsematrix_hmatrix"])
p("Interpolation in 2D boundary element methods",
  "The reference points are different zeros of the Chebyshev polynomial in [-1,1]; the interpolation points of a cluster are different in each direction even for a flat bounding box and lie in the (slightly enlarged) box. The matrices of Lagrange polynomials hold their values in the given points, or their integrals over the edges computed by the quadrature rule, and touch no other memory; equal points divide by zero. A low-rank block built by row interpolation represents the integrals of the interpolant of the kernel columns and is exact for polynomials of the degree of the scheme; the bases of father and son are nested through the transfer matrix. The matrix of normal derivatives is correct if no quadrature point shares a coordinate with an interpolation point; otherwise, with at least two points per direction, the function divides by zero although the derivatives are finite.",
  "all numbers of points, bounding boxes, meshes of edges, index arrays, quadrature rules, kernels",
  "Tests use a few orders and curves without edges parallel to the axes; exactness and nestedness hold for every order and cluster only by algebra.",
  ["Library/bem2d.c:setup_interpolation_bem2d", "Library/bem2d.c:assemble_interpoints2d_array", "Library/bem2d.c:assemble_interpoints2d_avector", "Library/bem2d.c:assemble_bem2d_lagrange_amatrix", "Library/bem2d.c:assemble_bem2d_lagrange_const_amatrix", "Library/bem2d.c:assemble_bem2d_dn_lagrange_const_amatrix", "Library/bem2d.c:assemble_bem2d_inter_row_rkmatrix", "Library/bem2d.c:assemble_bem2d_inter_tranfer_clusterbasis"])
p("Products of H2-matrices and dense matrices",
  "addmul_h2matrix_amatrix_amatrix adds alpha op(H) op(X) to Y for all four combinations of the adjoint flags, releases its temporary matrices and changes nothing else; if the dimensions do not fit an assertion fails. addmul_amatrix_h2matrix_amatrix should add alpha op(X) op(H): it does if not both flags are set, the basis for the columns of op(H) has no sons and alpha is real. For complex alpha the factor is conjugated; if the basis has sons an assertion fails unless Y has as many rows as the first son has indices; with both flags the function adds alpha H X if Y is square and fails otherwise.",
  "all H2-matrices with nested bases of any depth, dense matrices, flags, factors, addresses chosen by the allocator, star fields",
  "The recursion walks the block tree and the basis trees together with coefficient windows; only an induction over all trees shows that every window is right.",
  ["Library/h2matrix.c:fastaddmul_h2matrix_amatrix_amatrix", "Library/h2matrix.c:addmul_h2matrix_amatrix_amatrix", "Library/h2matrix.c:addmul_amatrix_h2matrix_amatrix"])
p("Clearing, scaling and converting H2-matrices",
  "clear_h2matrix makes the represented matrix zero and scale_h2matrix multiplies it by alpha; both change only the matrices of the leaves. convert_h2matrix_amatrix returns a newly allocated dense matrix with exactly the entries of the represented matrix, in the numbering of the clusters, or of its adjoint if the flag is set; all temporary vectors are released and nothing else changes.",
  "all H2-matrices with nested bases of any depth, factors, flags, addresses chosen by the allocator, star fields",
  "The operations recurse over trees of any shape; that the result is the matrix V S W* of nested bases needs an induction over both bases and the block tree.",
  ["Library/h2matrix.c:clear_h2matrix", "Library/h2matrix.c:scale_h2matrix", "Library/h2arith.c:convert_h2matrix_amatrix"])
p("Frobenius norm and orthogonality check",
  "normfrob_amatrix and normfrob2_amatrix return the Frobenius norm and its square, reading only the entries of the matrix. check_ortho_amatrix returns the Frobenius norm of I - A*A (with the flag: of I - AA*); it is zero exactly if the columns (rows) are orthonormal, it bounds the relative change of the squared norm of every vector multiplied by the matrix, and the memory is afterwards as before, the temporary matrix being released.",
  "all matrices with all sizes and leading dimensions, flags, addresses chosen by the allocator, real and complex fields, vectors",
  "A test evaluates the check for a few matrices; that it is zero for no other matrix and bounds the error for every vector is a statement about all of them.",
  ["Library/amatrix.c:normfrob_amatrix", "Library/amatrix.c:normfrob2_amatrix", "Library/amatrix.c:new_identity_amatrix", "Library/amatrix.c:init_identity_amatrix", "Library/amatrix.c:check_ortho_amatrix"])
p("Kernel functions for the Laplace equation",
  "The kernel functions of the boundary element method evaluate the fundamental solution and its derivatives: at different points, fill_kernel, fill_dny_kernel and fill_dnx_dny_kernel store the fundamental solution, its derivative in the direction of the normal vector in the second argument, and its mixed derivative, in two and three dimensions; the functions fill_kernel_c, fill_dnz_kernel_c, fill_dcol_kernel_col_c and fill_dnzdcol_kernel_c store the quadrature rule on the edges applied to the corresponding function. In two dimensions this is false: derivatives in the second argument have the wrong sign, and the mixed derivative of fill_dnx_dny_kernel is wrong beyond its sign.",
  "all pairs of different points, all vectors (not only unit vectors), all matrices with all sizes and leading dimensions, all curves, quadrature rules and index arrays",
  "A test compares a few values with difference quotients; that a formula is the derivative everywhere is a statement of analysis. The wrong sign is not visible in tests in which the kernels are only used with each other.",
  ["Library/laplacebem2d.c:fill_kernel_laplacebem2d", "Library/laplacebem2d.c:fill_dny_kernel_laplacebem2d", "Library/laplacebem2d.c:fill_dnx_dny_kernel_laplacebem2d", "Library/laplacebem2d.c:fill_kernel_c_laplacebem2d", "Library/laplacebem2d.c:fill_dnz_kernel_c_laplacebem2d", "Library/laplacebem2d.c:fill_dcol_kernel_col_c_laplacebem2d", "Library/laplacebem2d.c:fill_dnzdcol_kernel_c_laplacebem2d", "Library/laplacebem3d.c:slp_kernel_laplacebem3d", "Library/laplacebem3d.c:dlp_kernel_laplacebem3d", "Library/laplacebem3d.c:adlp_kernel_laplacebem3d", "Library/laplacebem3d.c:hs_kernel_laplacebem3d", "Library/bem3d.c:fill_bem3d"])
p("Expanding a matrix by a cluster basis matrix",
  "expand_clusterbasis_amatrix adds the product of the nested cluster basis matrix of a cluster and the first k rows of the coefficient matrix to the target matrix, keeps these rows, and changes only the two matrices; applied to the identity it produces the explicit cluster basis matrix; it is the adjoint of compress_clusterbasis_amatrix.",
  "all nested cluster bases with consistent sizes and counts, all ranks (including zero), all numbers of columns and leading dimensions, all disjoint valid matrices",
  "Tests use a few cluster trees and ranks; the rows of the temporary storage used by different levels and sons overlap, and that no row is read after it has been overwritten depends on the structure of the whole tree.",
  ["Library/clusterbasis.c:expand_clusterbasis_amatrix", "Library/clusterbasis.c:compress_clusterbasis_amatrix"])
p("Enumerating the submatrices of an H-matrix",
  "For an H-matrix with the structure of the block tree, enumerate_hmatrix returns an array of b->desc entries in which entry k is submatrix number k, which belongs to the clusters of block number k; matrices created from the block tree have this structure. For a block tree finer than the matrix, without assertions, the entries of blocks below leaves of the matrix are null and the others are exactly the submatrices; with assertions compiled, the function dereferences these null pointers and fails.",
  "all block trees with consistent counts, all H-matrices with the same or a coarser structure, with and without assertions",
  "Tests use matrices created from the same block tree; the case of a coarser matrix is handled explicitly in the code but never executed by tests, and the positions of all submatrices depend on the counts in the whole tree.",
  ["Library/hmatrix.c:enumerate_hmatrix", "Library/hmatrix.c:enumerate", "Library/block.c:enumerate_block"])
p("Copying an H-matrix",
  "clone_hmatrix returns a complete H-matrix with the same clusters, blocks, ranks and coefficients and exact counts of blocks; its leaves are new memory, they overlap neither each other nor memory that was in use before, and nothing that was in use before is changed. The copy represents the same matrix and continues to do so if the memory of the original matrix is changed or released.",
  "all H-matrices with allocated leaves, of all shapes, sizes and ranks, all leading dimensions, all memory allocators, all contents of new memory",
  "That a deep copy shares nothing with its original is a statement about all later changes of both; tests compare the entries once.",
  ["Library/hmatrix.c:clone_hmatrix", "Library/hmatrix.c:new_super_hmatrix", "Library/hmatrix.c:new_rk_hmatrix", "Library/hmatrix.c:new_full_hmatrix", "Library/hmatrix.c:update_hmatrix"])
with open('/verif/properties.jsonl','w') as f:
    for x in P: f.write(json.dumps(x)+"\n")
print(len(P))
