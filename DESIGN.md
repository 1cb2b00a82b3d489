# H2Lib formal model: design and trusted base

## Layout

* `lean/Verif/Core/*`   execution model shared by all modules (errors, loops, loop rules).
* `lean/Verif/Model/*`  executable model of the C code, function by function; each definition cites file and lines.
* `lean/Verif/Spec/*`   small, model independent specifications (what "sorted", "partition", "matrix product" mean).
* `lean/Verif/Proof/*`  helper lemmas.
* `lean/Verif/Props/*`  the property theorems (`Cxx_…`), each followed by an `example` showing that a
  concrete non-trivial case meets its hypotheses.

## Modelling conventions

1. **Outcomes.** A C call that can violate an `assert`, abort or run into undefined behaviour returns
   `Except Err α` with `Err = assertFail | ub | abort | nan | fuel`; `nan` is a division by zero (the C code would go on
   with NaN or infinity; the model stops), `fuel` is an exhausted step bound of a `while` loop; out-of-bounds and NULL accesses are `ub`. Functions
   whose C text cannot fail (given their types) are modelled as total functions.
2. **Loops** are structural folds (`forUp lo hi body`), recursion over trees is structural; recursion
   without a structural measure takes fuel, and termination is a theorem about the fuel.
3. **Scalars.** `field`/`real` are elements of an arbitrary (ordered / star) field: exact arithmetic. Rounding,
   NaN and infinities are *not* modelled. `sqrt` enters only where noted.
4. **Integers.** `uint` counters are `Nat` (no wrap-around, i.e. sizes below 2^32), except in the allocator
   properties (C02, C04), which are about wrap-around and use arithmetic modulo 2^64, and in
   `clear_upper_amatrix` (C27), whose bug is a wrap.
5. **Memory.** Dense kernels work on a memory `Nat → Option K` (`none` = not allocated) with explicit base,
   leading dimension, rows, columns, so stray accesses are visible as `ub` or as violated frame conditions.
   Tree data types are inductive types; pointer identity is modelled only where the code depends on it
   (reference counts, uniform lists, `son->rc == rc` tests in the block iterators).
6. **Parallelism.** OpenMP parallel loops are modelled by the set of all interleavings of the iterations'
   atomic actions; a property "for every schedule" quantifies over these.
   OpenMP tasks inside `omp single` with `taskwait`/implicit barriers are modelled by phases; within a phase all
   interleavings of memory accesses (sequentially consistent) are covered.
7. **Allocation.** Where the code allocates, the model takes an allocator as a parameter; the only assumption
   (`GoodAlloc`, `FreshAlloc`) is that on a memory with finitely many cells in use it returns unused cells. Fresh cells hold arbitrary
   values (`junk`). Reference counted objects and linked lists (C35–C37) live in an abstract heap of records.
8. **Callbacks** (`mvm`, `addeval`, `prcd`, `matrixentry_t`) are arbitrary functions that meet a stated contract (`IsMvm`,
   `IsAddEval`, `IsPrcd`, `IsEntry`). Random numbers are an arbitrary function of the call number.
9. **Build options.** The model follows the code without USE_BLAS (BLAS/LAPACK routines are external), without
   USE_NETCDF unless stated, without OpenCL/Cairo/GLUT. Both real and complex `field` are covered by
   an arbitrary star-ring conjugation.

## Trusted base

* Lean 4.33 kernel; axioms: at most `propext`, `Classical.choice`, `Quot.sound` (checked by `#print axioms`, see
  end of this file). No `native_decide`, no own axioms.
* The reading of the C code: every definition cites the lines it models; simplifications are stated there.
* C compiler, libc, BLAS/LAPACK, NetCDF, OpenMP runtime: not modelled.

## Per-property plan

| id | model | proof idea |
|----|-------|-----------|
| C01 | `heap_down`, `_h2_heapsort` on arrays as functions with swap | heap invariant on suffix; permutation by swaps; termination by child index growth |
| C02, C04 | size computation modulo 2^64, guard, result | modular arithmetic; negations by concrete witnesses |
| C03 | allocator state machine: live blocks + counter | invariant over histories; interleavings of atomic updates |
| C05–C09 | cluster builders with index array, midpoint split; fuel | induction on fuel/size; midpoint lemma for ordered fields; non-termination by fuel induction |
| C10–C12 | cluster trees, iterators with callbacks as event traces; parallel = shuffles | structural induction |
| C13–C15 | block tree builders over cluster trees, abstract predicate | structural induction, exists-unique leaf |
| C16, C17 | iterators producing event traces, block lists; schedules | structural induction; disjointness of row clusters |
| C18 | admissibility tests over the reals | real inequalities |
| C19–C23 | pattern lists, CSR arrays | invariants over histories; sums over CSR = dense sums |
| C24–C29 | memory-level dense kernels | loop invariants with frame |
| C30 | rk matrices | sums |
| C31 | findrank loops | loop invariants, minimality |
| C32–C34 | H-matrix trees | structural induction on trees |
| C35–C37 | heap of objects with reference counts, doubly linked lists | invariants over histories |
| C38–C40 | cluster bases, H2-matrices | structural induction |
| C41–C44 | dense factorizations | loop invariants; schedule independence via commuting tasks |
| C46 | `add_hmatrix`, `addmul_hmatrix` and helpers on H-matrix values (`HV`); a submatrix sharing memory is a window taken out and put back; the truncated low-rank operations are parameters (`TruncOps`) with the contract `Lossless` | structural induction over both block trees, loop invariants on partially updated sons |
| C45 | triangular solves, `lrdecomp_hmatrix`, `lrsolve_hmatrix_avector` on the same values; dense kernels by the contract proved in C41–C43 | structural induction; block elimination |
| C47, C48 | Krylov steps, matrix as linear callback | invariants over steps |
| C49 | `cluster.c:923-1385` writers/readers over a model of NetCDF files (named dimensions/variables, uniqueness, one unlimited dimension, bounds) | `writeCdf` writes the preorder list of sizes and the postorder list of boxes (structural induction), `readPart` parses them back; prefixes injective and disjoint; `NoFuel` induction for termination |
| C50 | full and partial ACA on memory, allocator and entry callback as parameters | loop invariants, permutations, rank of triangular products |
| C51 | `refine_tri2d`, `check_tri2d`, `getvertices_tri2d` over C-layout arrays (every access bounds-checked), the four built-in meshes | loop invariants for the five loops of the refinement; counting of incidences; barycentric coordinates for the tiling; induction on the number of refinements |
| C52 | block trees: levels, depth, sparsity | structural induction |
| C53 | power iteration `norm2_*` over callbacks | induction over steps, Cauchy–Schwarz |
| C54 | BiCG steps | induction over steps, biorthogonality |
| C55 | `tri2dbuilder` (`find_edgeentry`, `addtriangle`, `buildmesh`), `fixnormals_tri2d` | invariant relating the edge chains to the triangles added so far; neighbour counters = number of triangles containing both end points; signed area under reversal |
| C56 | `factorizations.c:2152-3038` (code without BLAS): three factorizations, evaluation, expansion, solve, inversion | loop invariant `QInv` (reflections unitary, finished columns approximated, remaining columns = Q times array), unitary invariance of column norms for dominance and truncation; sign functions treated through their properties `SignFn` |
| C57 | `factorizations.c:1255-1526`: copy_lower, copy_upper, triangularaddmul | loop invariants per column, four transposition cases in one loop with ranges of triangles |
| C58 | `clusterbasis.c:1055-1093, 1514-1764`, `clusteroperator.c:425-480`: orthogonalization, weights, orthonormality check, compression of matrices, basis products | induction over the tree of the basis; local QR at memory level (C56, C57), `vbasis` and `cross` as specification, Gram matrices of stacked blocks |
| C59 | `uniform.c:252-361`, `h2compression.c:1729-1798`: projection of uniform and H²-matrices | induction over the block tree; case analysis over kept/changed bases; Pythagoras for the best approximation |
| C60 | `h2matrix.c:1817-1962`, `uniform.c:365-391`, `h2compression.c:3599-3654, 4077-4142`: projection of dense and H-matrices | double induction over row and column bases for V^*AW; induction over the block tree; Pythagoras block by block for the best approximation |
| C61 | `kernelmatrix.c:15-548`: kernel matrices, tensor interpolation | recursion over dimensions with mixed-radix numbering; Lagrange interpolation reproduces polynomials (Mathlib) for the transfer matrices; induction over trees |
| C62 | `krylovsolvers.c:17-135`, `avector.c:343-354`: CG and PCG solvers with allocation of auxiliary vectors | composition of C47/C48 (runs of CG) with the stopping loop |
| C63 | `harith.c:23-508, 610-992, 1627-1893`, `factorizations.c:199-240`: truncation, addition and merging of low-rank matrices; `svd_amatrix` is a parameter | QR lemmas of C56, Eckart-Young theorem for the Frobenius and spectral norms (`Proof/TruncSvd`), existence of the singular value decomposition (`Proof/TruncExist`); discharges the hypothesis `Lossless` of C45 and C46 |
| C64 | `hcoarsen.c:8-131`: coarsening, on H-matrix values | structural induction with an abstract error relation (`ErrRel`), instantiated with absolute Frobenius/spectral and relative Frobenius errors; truncation from C63 |
| C65 | `harith.c`: `add_lower_*`, `addmul_lower_hmatrix`, `choldecomp_hmatrix` on H-matrix values, composition with `cholsolve_hmatrix_avector` | block Cholesky invariant (`CholInv`: computed columns, Schur complement), uniqueness of computed columns, Gram argument for positive definiteness; the transposed/untransposed branch is refuted |
| C66 | `krylov.c`: GMRES and preconditioned GMRES (init, step, finish, residual norm, Givens rotations), `krylovsolvers.c`: `solve_gmres_avector`, `solve_pgmres_avector`, at memory level | invariant: `qr` and `tau` hold a Householder QR factorization of the Krylov matrix, the rotations triangularise the Hessenberg matrix, `rhat` is the rotated right-hand side; minimality from orthogonality of the transformation; restarts by induction over runs; the deviations are proved as separate theorems |
| C67 | `invert_hmatrix` (`harith.c:3604-3676`) with `clear_hmatrix` and `qrinvert_amatrix` on the diagonal leaves | structural induction over the block tree; forward loop: ghost sequence of Schur complements, each step is an elimination step (`Elim`) and maps invertible leading minors to invertible leading minors; backward loop: block inversion formula; the products are those of C46 |
| C68 | `norm2_matrix`, `norm2diff_matrix`, `norm2diff_pre_matrix`, `norm2diff_id_pre_matrix` (`krylov.c:14-156`) with allocation and release of the vectors, `random_avector`, `norm2_amatrix`, `norm2diff_amatrix` | loop invariant: the norm is the quotient of consecutive iterates of `A^* A`; bounds by the Cauchy-Schwarz inequality (the sequence of norms of the iterates is logarithmically convex) |
| C69 | `build_regular_interface_cluster`, `build_regular_dd_cluster`, `build_adaptive_interface_cluster`, `build_adaptive_dd_cluster`, `admissible_dd_cluster` (`ddcluster.c:9-645`) with the flag array and the sparse matrix; `build_nonstrict_block`, `build_strict_block` with pointer comparison | invariant of the separator loop (permutation, untouched part, touched part), induction over the recursion; size decreases (twice for interfaces) |
| C70 | `triMulVec`, `triMulHA`, `triMulH`, `triangulareval`, `lreval`, `choleval` (`Model/HMul`) | structural induction over the block tree; in-place invariant: processed part = op(T) restricted to it, rest unchanged; defect of harith.c:5699 modelled and proved to be reachable |
| C71 | `givens`, `rotCols`, `rotDiag`, `qrSweep`, `deflate`, `blockSize`, `wilkinson`, `qrRound`, `sortEig`, `muleig`, `eigTri` (`Model/Eigen`) | bulge-chasing invariant: Givens rotations give an orthogonal similarity; perturbation bounds in the spectral norm for deflation and block splitting, multiplied along the iteration; sorting by C01 |
| C72 | `subNorm2`, `reflCol`, `reflRow`, `tdHouse`, `tdStep`, `tridiagonalize` (`Model/Tridiag`) | invariant: Q M Q^* is within k*2*sqrt(tiny) of A, where M is tridiagonal in its first k columns up to a sign D carried into the trailing block; Householder matrices are unitary |
| C73 | `resizeReal`, `sbEig`, `eigMat` (`Model/EigFull`) | C72 followed by C71; spectral norm of a real matrix equals the norm of its complexification; Krylov spaces of the first unit vector show that the tridiagonal matrix is unreduced |
| C74 | `CMode`, `stack2`, `truncPre`, `truncInherit`, `truncWeighted`, `truncLocal`, `CBV.truncIter`, `CBV.truncate` (`Model/TruncBasis`) | induction over the tree: D_t = V_t - Q_t Q_t^* V_t splits orthogonally into the errors of the sons and the local error; per-cluster certificate (`Cert`) turned into the global bound |
| C75 | `COp.nodeAt/enumCheck/enumerate/fill`, `blockAlpha`, `addWeight`, `localWeights2`, `H2V.iterWeights`, `H2V.localweights`, `CBV.accum`, `H2V.totalweights` (`Model/LocalWeights`) | arrays indexed by paths; each step adds a quadratic form (`Adds`), loops add sums, cyclic diagonals are a bijection; QR keeps the form |
| C76 | `CBV.cloneStructure`, `H2V.compress` (`Model/Compress`) | composition of C74, C75, C60: per-block error by splitting `VSW^* - V\'S\'W\'^*` orthogonally, total error by summing quadratic forms over clusters; clusters with zero form get rank zero |
| C77 | `P1.*` (`Model/TriP1`): numbering, patterns, element matrices, assembly, load vectors, norms, prolongation | loop invariants over triangles; nodal basis functions as Kronecker deltas turn element matrices into bilinear forms; gradients are unique solutions of 2x2 systems; quadratic polynomials integrated exactly; refined triangles have the same gradients and a quarter of the area |
| C78 | `Gauss.*` (`Model/Gauss`): Jacobi matrix, eigenvalue solver as parameter, nodes and weights | Legendre polynomials by recurrence, derivative identities, orthonormality, powers of the Jacobi matrix contain moments; norm of the Jacobi matrix by the Schur test; perturbation of powers; squares of products of linear factors |
| C79 | `Surf.*` (`Model/Surface`): surface meshes in flattened arrays with bounds checks | nested loop invariants counting violations and passages; Heron's formula via cross product; affine maps of cross products; copies of array rows for merging |
| C80 | `Surf.refineRed` (`Model/SurfRefine`): loops over vertices, edges, triangles with the running counters of the code | loop invariant over finished corner triangles; passages of halves correspond to passages of edges; cross products of midpoints |
| C81 | `H2Mat.triSolveVec`, `lowersolve`, `uppersolve`, `lrsolve`, `cholsolve` (`Model/H2Solve`): trees in memory, forward/coupling/backward steps for off-diagonal blocks, allocator for temporary vectors | induction on the block tree with the sweep invariants of C45; exactness of the H2 product (C40) for the updates; permutation lemma |
| C82 | `CBas.compress`, `expand`, `addeval`, `addevaltrans`, `mvmUniform` (`Model/CbBranch`): trees in memory, `kbranch` storage shared by the sons | induction on the basis tree; loop invariant over finished sons; frame conditions for the shared storage |
| C83 | `CBas.forwardMat`, `backwardMat`, `backwardTransMat`, `compressMat`, `compressPar` (`Model/CbMatrix`): column-major submatrices with leading dimension, counter of submatrices | induction on the basis tree with frame conditions for row and column parts; counterexamples evaluated by the kernel |
| C84 | `HMat.copySparse` (memory), `HV.clearAll`, `identityH`, `clearUpperH`, `copyH` (`Model/HFill`) | induction on the block structure; triple loop invariant with partial row sums, no position stored twice |
| C85 | `Interp.chebyshev`, `pointsVec`, `pointsArray`, `lagrange`, `lagrangeConst`, `dnLagrangeConst`, `interRow`, `transfer` (`Model/Interp`) | Lagrange interpolation reproduces polynomials, tensor products, loop invariants over columns; a division by zero is traced through all loops |
| C86 | `H2Mat.fastaddmul`, `mulNode`, `addmulLeft`, `addmulRight` (`Model/H2Mul`) | induction over the block tree with a contract for calls in terms of both bases, used for both transpositions; forward and backward transformations from C83 |
| C87 | `H2Mat.clear`, `scale`, `convCol`, `convert` (`Model/H2Convert`) | induction over the block tree with an invariant over the sons already treated; loop invariant over the columns with the transformations of C38 and the coupling step of C40 |
| C88 | `normfrobM`, `normfrob2M`, `newIdentity`, `checkOrtho` (`Model/Frob`) | loops of C02; identity of C01 and product of C03 in fresh memory; Cauchy-Schwarz inequality over pairs of indices |
| C89 | `fillKernel2` … `fillDnzDcolC2`, `slp`, `dlp`, `adlp`, `hs`, `fillBem3` (`Model/Laplace`) | derivatives with Mathlib's `deriv`; the mixed derivative from the first one in a neighbourhood; loops as in C01 |
| C90 | `CBas.expandMat` (`Model/CbExpand`) | induction on the cluster basis: the rows behind the first `k` are storage of the sons; the adjoint from C83 |
| C91 | `HMat.enumerateHmatrix` (`Model/HEnum`) | induction on the block tree: the double loop writes consecutive lists; for the converse, success of all calls for the sons |
| C92 | `HMat.clone` (`Model/HClone`) | induction on the H-matrix; loop invariant: the sons finished so far are copies in memory that was unused at the start, pairwise disjoint |
