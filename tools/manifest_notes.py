notes = {
 'C01': ('proved', 'positions as Nat: index arithmetic assumed not to wrap'),
 'C02': ('proved', 'positive part for 32-bit dimensions, plus proof that the 64-bit claim is false of the code'),
 'C03': ('proved', 'all interleavings of the atomic actions'),
 'C04': ('proved', 'Exact characterisation, including the gap in which the guard fails.'),
 'C05': ('proved', 'exact arithmetic over an arbitrary ordered field; dim > 0'),
 'C06': ('proved', 'all four modes'),
 'C07': ('proved', 'exact arithmetic'),
 'C08': ('proved', 'all four modes'),
 'C09': ('proved', 'exact arithmetic; eigenvector routine of the PCA mode is a parameter'),
 'C10': ('proved', ''),
 'C11': ('proved', ''),
 'C12': ('proved', 'all schedules of the parallel iterator'),
 'C13': ('proved', 'every admissibility predicate'),
 'C14': ('proved', ''),
 'C15': ('proved', 'success, partition and labels under the son-count condition; out-of-bounds proved when it fails'),
 'C16': ('proved', ''),
 'C17': ('proved', 'all interleavings of the parallel sections'),
 'C18': ('proved', 'real arithmetic'),
 'C52': ('proved', ''),
 'C19': ('proved', ''),
 'C20': ('proved', ''),
 'C21': ('proved', 'exact arithmetic'),
 'C22': ('proved', 'exact arithmetic'),
 'C23': ('proved', 'the claim is false of the code: proved to fail for every rectangular matrix, to succeed for square ones'),
 'C53': ('proved', 'exact real arithmetic'),
  'C24': ('proved', 'All kernels of avector.c/amatrix.c named in the property (non-BLAS code), memory-level model with windows; exact arithmetic over any star field. Source and target windows are assumed disjoint (aliasing calls are not covered).'),
  'C25': ('proved', 'Views as memory windows: same cells, nesting, containment.'),
  'C26': ('proved', 'Exact characterisation of a defect (cols is set to rows): the exact result, it is right iff rows = cols, and the resulting window overruns the buffer if cols < rows.'),
  'C27': ('proved', 'clear_lower: full. clear_upper: full except strict=false with rows=0 and cols>0, where an out-of-bounds write is proved.'),
  'C28': ('proved', 'With a correct allocator (fresh cells, arbitrary contents).'),
  'C29': ('proved', 'Over RCLike fields; the random generator is an arbitrary function.'),
  'C30': ('proved', 'Memory-level model; requires both factors to have k columns (which the library maintains) and windows disjoint from the target. add_rkmatrix_amatrix uses all columns of the factors, the others only the first k.'),
  'C31': ('proved', 'Exact arithmetic, decreasing singular values; all modes including tm = NULL.'),
  'C32': ('proved', 'Exact arithmetic over any field with involution; memory-level model including the permuted temporary vectors; also scale_hmatrix.'),
  'C33': ('proved', 'Exact arithmetic; diagonal leaves dense (otherwise an assertion fails, also proved).'),
  'C34': ('proved', 'Round trip holds iff subdivided blocks are not flagged admissible; holds for all four builders.'),
  'C35': ('proved', 'Every history of legal operations (typed pointers, clients keep a way to reach objects they own, only completed objects are referenced) on a heap of H-matrices, H2-matrices, cluster bases and uniform matrices; the use-after-free of ref_x(&p, p) with a single reference is proved as well. Deletion with sub-objects, list maintenance; the numerical contents are not part of this model.'),
  'C36': ('proved', 'Invariant over all histories; rows and columns.'),
  'C37': ('proved', 'Exact characterisation (second release is a no-op iff the uniform matrix had no neighbour in the list, an assertion failure otherwise, also from del_uniform).'),
  'C38': ('proved', 'Forward and backward transformation (with and without permutation, with and without transfer matrices), adjointness, layout, update. Sequential code; the OpenMP variants are not modelled.'),
  'C39': ('proved', 'Counter restored by the nested transformations; exact growth (one per leaf) for the notransfer variants.'),
  'C40': ('proved', 'addeval, addevaltrans and mvm for every H2-matrix, every allocator address, with release of the temporaries and the frame condition; the represented matrix is characterised by C40_entry and C40_sons. addevalsymm_h2matrix_avector is not modelled.'),
  'C41': ('proved', 'lrdecomp (return value = order of the first vanishing leading minor, factors, uniqueness), lrsolve for vectors and matrices, lreval, every leading dimension; the empty matrix reads out of bounds (C41_empty). Code without BLAS.'),
  'C42': ('proved', 'lrdecomp_blocks: same return value and factors for every size and block size without uint overflow. lrdecomp_tasks: every interleaving of the single memory accesses of the tasks gives these factors, except for block size = n, where the missing return factorizes twice (C42_tasks_twice, C42_tasks_defect).'),
  'C43': ('proved', 'Triangular solves and products for vectors and matrices, plain and adjoint, unit and non-unit, rectangular matrices; they invert each other; solves with and products by the diagonal.'),
  'C44': ('proved', 'choldecomp (result = order of the first leading block that is not positive definite, L L^* = A), ldltdecomp (first vanishing minor, L D L^* = A), the upper triangle is never touched, and the solves and products that use the factors. Real diagonal assumed (exact arithmetic); empty matrices read out of bounds (C44_empty). Code without BLAS.'),
  'C47': ('proved', 'CG, PCG, BiCG, BiCGStab, Uzawa, preconditioned Uzawa: after any number of steps the residual vector is the residual of the iterate, the right-hand side and everything outside the vectors is unchanged, and a step divides by zero exactly under the stated condition. Callbacks are arbitrary functions meeting IsAddEval / IsMvm / IsPrcd; the dense kernels are shown to meet them. GMRES is not modelled here.'),
  'C48': ('proved', 'CG, PCG and both Uzawa methods for positive definite matrices: conjugate directions, minimal energy over the Krylov space, termination after at most n steps with the exact solution, and the next step divides by zero (CgRun.nan); evalfunctional_cg evaluates the energy. Exact arithmetic over RCLike fields.'),
  'C54': ('proved', 'Real fields: biorthogonality, biconjugacy, at most n steps. Complex fields: C54_complex shows that the first step fails for a 1x1 system unless the coefficient is real.'),
  'C50': ('proved', 'Full and partial cross approximation at memory level over RCLike fields, with an arbitrary correct allocator and callback. The partial variant divides by zero if the selected remainder row vanishes; proved impossible for linearly independent rows and unavoidable for zero matrices (C50_partialaca_zero). It requires the factors passed in to have ld = rows, as the code does.'),
  'C46': ('proved', 'add_hmatrix, addmul_hmatrix (all adjoint combinations), add_amatrix/rkmatrix_hmatrix, add_hmatrix_amatrix, addmul_hmatrix_amatrix_amatrix with split/merge of leaves, value-level dense and low-rank matrices (windows are taken out and put back). Truncated low-rank additions are parameters meeting the contract Lossless, which exactOps meets. Block structures must follow the cluster trees (HVStd), as the strict and non-strict builders produce. add_amatrix_hmatrix with atrans on subdivided targets is wrong (C46_add_amatrix_hmatrix_adjoint_wrong).'),
 'C45': ('proved', 'triangular solves, LR decomposition (exact characterisation incl. failure) and solves for all block structures; truncated operations are assumed lossless (contract Lossless, shown satisfiable), pivots exact; choldecomp_hmatrix itself not covered'),
 'C51': ('proved', 'refine_tri2d, check_tri2d, getvertices_tri2d and the four built-in meshes, memory-level arrays with bounds checks, coordinates in any (ordered) field; counters as naturals (no 32-bit wrap). The library check is characterised exactly; it is weaker than consistency (witness), equivalent for meshes without double or degenerate edges.'),
 'C55': ('proved', 'tri2dbuilder with its linked lists as lists, fixnormals_tri2d; success is characterised exactly; coordinates in an ordered field.'),
 'C49': ('proved', 'NetCDF files modelled as tables of named dimensions and variables (uniqueness of names, one unlimited dimension, bounds checks); sizes as natural numbers. Files of cluster trees, with and without prefixes; termination on arbitrary files; dimension 0 proved to fail. hmatrix and clusterbasis files: see later properties.'),
 'C56': ('proved', 'Code without BLAS, memory level, RCLike fields, exact real arithmetic. Columns of squared norm at most H2_ALMOST_ZERO are skipped, and the complex SIGN1 has the wrong phase for such numbers (C56_sign_complex_defect): the factorization is exact up to max(tiny, 4 tiny) per column, exactly in the idealised case (C56_qr_exact). The relative truncation modes return at least one for non-empty matrices.'),
 'C57': ('proved', 'Code without BLAS, memory level. copy_lower leaves rows beyond those of a untouched, copy_upper leaves columns beyond those of a untouched (stated exactly).'),
 'C58': ('proved', 'Matrices of the bases are values, every factorization runs at memory level on a copy (C56, C57). Orthonormality, dimensions and counters hold for every H2_ALMOST_ZERO >= 0 and sign function; equality of the spans and C^*C = V^*V are proved for an exact zero test (tiny = 0), because columns below the threshold are dropped. The lists of uniform matrices of a basis are not represented.'),
 'C59': ('proved', 'Bases are values with an identity (tree number and path) for the pointer comparisons; matrices are values; reference counters and lists of uniform matrices are C35/C37. The in-place variant for whole H2-matrices (project_inplace_h2matrix) is not modelled.'),
 'C60': ('proved', 'Finding: project_amatrix_h2matrix dereferences a null pointer for leaves without content (C60_project_dense_zero); such leaves are excluded by the hypothesis NoZero. project_hmatrix_h2matrix does not check that the structures match; matching structure is a hypothesis.'),
 'C61': ('proved', 'Findings: clusters whose bounding box has a side of length zero (for example clusters with one point) lead to 0/0 for m >= 2 (C61_flat), so non-degenerate boxes are a hypothesis; new_kernelmatrix without points writes out of bounds (C61_new).'),
 'C62': ('proved', 'Observation: maxiter = 1 performs no step at all (iter + 1 != maxiter), which is what the theorem states (iter < maxiter). The typed wrappers only fix the callback (C47_callback_* shows that dense matrices satisfy the contract).'),
 'C63': ('proved', 'svd_amatrix is a parameter assumed to compute an exact singular value decomposition of every matrix (existence of such a function is proved); QR, triangular products, copies are the modelled library functions. For complex coefficients add_amatrix_rkmatrix uses conj(alpha) when rows < cols: C63_add_dense states what the code does, C63_add_dense_defect and C63_not_lossless prove the defect.'),
 'C64': ('proved', 'Exact arithmetic; svd_amatrix as in C63. The test G->rc == G->cc is a parameter. Relative error bound for the Frobenius norm; for relative spectral tolerances only structure, storage, minimality and exactness for eps = 0 are claimed. Leaves without r and f (assertion failure in the code) are not part of the model.'),
 'C65': ('proved', 'Exact arithmetic over the reals or complex numbers; the truncated operations are assumed to be lossless (C63 provides this for the library operations over the reals with tolerance zero, see C65_choldecomp_real). add_lower_amatrix_hmatrix is only covered with atrans = false, the only value used by the library. The defect of addmul_lower_hmatrix (harith.c:3547) is proved as C65_addmul_lower_defect.'),
 'C66': ('proved', 'Exact real arithmetic. The breakdown in which A q_k is orthogonal to the current residual direction leads to 1 / 0 in findapply_givens; it is excluded by the regularity hypothesis (outcome nan in the model, IEEE infinity is not modelled). Steps that do not reduce the residual and steps beyond the dimension are excluded in C66_steps; C66_tie, C66_overrun, C66_one_column and C66_complex_defect show what happens outside. solve_gmres (krylov.c:772-824), which prints to stdout, is not modelled.'),
 'C67': ('proved', 'Exact arithmetic; lossless truncated operations are an assumption in C67_invert and C67_invert_pd, it is discharged for the operations of the library over the reals with tolerance zero in C67_invert_real. Only the regular case is stated: for a singular dense diagonal leaf the code divides by zero, the outcome of which is not modelled. tiny = 0 stands for H2_ALMOST_ZERO.'),
 'C68': ('proved', 'Exact arithmetic; the callbacks are assumed to perform the products (the contract is proved for mvm_amatrix_avector in C47_callback_mvm). norm2_sparsematrix passes wrong sizes (C53). The random numbers are arbitrary.'),
 'C69': ('proved', 'Stated as an exact description of what the code does, including two defects (reachable assert(0), infinite recursion for dim = 1). Termination of the regular version is not claimed (it does not terminate for more than clf coincident points). The variants building from a cluster tree of elements are not modelled.'),
 'C70': ('proved', 'Exact arithmetic; truncated operations are a parameter with the Lossless contract for the H-matrix operand (discharged over the reals by C63 with eps = 0); C70_mul needs RowsMatch in the one case in which the program checks the wrong number of sons, C70_mul_defect shows that the program fails otherwise.'),
 'C71': ('proved', 'Exact real arithmetic: the bound counts deflation and block splitting errors, not rounding. Non-termination for maxiter = 0 is modelled by fuel. C71_zero proves the division by zero (NaN) for the zero matrix.'),
 'C72': ('proved', 'Exact arithmetic. C72_defect proves that Q T Q^T differs from A for a positive definite 4x4 matrix whose second column vanishes during the elimination; C72_null: Q == NULL is dereferenced by the assertions.'),
 'C73': ('proved', 'Exact arithmetic; errors are those of the thresholds, not of rounding. C73_defect: for a positive definite matrix the returned Q diag(lambda) Q^T differs from A by at least one. C73_zero, C73_null, C73_empty state the other deviations from the documentation.'),
 'C74': ('proved', 'Exact arithmetic; svd_amatrix is a parameter that computes a singular value decomposition. Accuracy is proved for the absolute modes (and tolerance zero in all modes). Total weights have to be nested (Inherits).'),
 'C75': ('proved', 'Exact arithmetic; norm2_amatrix (power iteration) is assumed to return the spectral norm if blocks are scaled by spectral norms; serial iteration. Defect: enumerate_clusteroperator dereferences null operators (C75_null, C75_total_ortho).'),
 'C76': ('proved', 'Exact arithmetic; SVD by its contract; norm2_amatrix exact if blocks are scaled by spectral norms. The sequence of calls satisfies the documented error bounds (C76_sequence); compress_h2matrix_h2matrix exchanges the weights (h2compression.c:74, 78): exact consequences in C76_hermitian, C76_symmetric, C76_mismatch, C76_lost, C76_defect, C76_ortho.'),
 'C77': ('proved', 'Real build, exact arithmetic. Integrals are iterated interval integrals over the reference triangle. build_tri2dp1_clustergeometry is not modelled.'),
 'C78': ('proved', 'Exact arithmetic. The eigenvalue solver is a parameter with a backward error contract; the contract is proved for the library solver without BLAS (C71).'),
 'C79': ('proved', 'Exact real arithmetic; printing of messages is not modelled. C79_scale_defect and C79_merge_ub prove that two functions violate their documentation.'),
 'C80': ('proved', 'Exact real arithmetic.'),
 'C81': ('proved', 'Exact arithmetic over any star field; temporary vectors come from an allocator that returns unused memory (FreshAlloc).'),
 'C82': ('proved', 'Exact arithmetic over any star field; temporary vectors come from an allocator that returns unused memory (FreshAlloc).'),
 'C83': ('proved', 'Exact arithmetic over any star field. The negative parts (backward_clusterbasis_trans_amatrix with sons, compress_parallel_clusterbasis_amatrix) are proved as a failing assertion for all matching arguments and as counterexamples; C83_backward_trans_partial is the part of the intended property that holds.'),
 'C84': ('proved', 'Exact arithmetic. copy_sparsematrix_hmatrix on memory, the other functions on values of H-matrices. The leading dimension problem is proved as a counterexample (C84_copy_sparse_window_wrong).'),
 'C85': ('proved', 'Exact arithmetic; the cosine only for the reference points, over the reals. kernel_col enters as a contract. The division by zero in the normal derivatives is proved (C85_dn_lagrange_const_nan, C85_dn_lagrange_const_witness).'),
 'C86': ('partial', 'The left product is proved completely. The right product is wrong in the code: proved where correct (C86_right_partial), otherwise characterised (C86_right_alpha, C86_right_fails, C86_right_adjoints, C86_right_adjoints_wrong); not covered: a basis with sons and a Y with as many rows as the first son has indices.'),
 'C87': ('proved', 'The counter of active dense matrices is left out. The coefficients of different leaves must not overlap.'),
 'C88': ('proved', 'Variants without BLAS in exact arithmetic.'),
 'C89': ('partial', 'Proved in three dimensions and for the derivative in the first argument. In two dimensions the code is wrong: fill_dny_kernel_laplacebem2d, fill_dcol_kernel_col_c_laplacebem2d and fill_dnzdcol_kernel_c_laplacebem2d compute the negative of the derivative, and fill_dnx_dny_kernel_laplacebem2d neither the mixed derivative nor its negative (sign of the term with 2.0 * dot); the exact values are proved. Exact real arithmetic; SIMD variants are not modelled.'),
 'C90': ('proved', 'Exact field arithmetic; the case of one thread.'),
 'C91': ('proved', 'Matrices with numbers of sons different from the block count as errors also without assertions.'),
 'C92': ('proved', 'Successful allocations; reference counters are treated in C35.'),
}
