{
 "claims": [
  {
   "property": "C01",
   "status": "proved",
   "theorems": [
    "H2.Props.C01_heapsort_sorted_permutation"
   ],
   "note": "positions as Nat: index arithmetic assumed not to wrap"
  },
  {
   "property": "C02",
   "status": "proved",
   "theorems": [
    "H2.Props.C02_alloc_vector_exact",
    "H2.Props.C02_alloc_vector_complete",
    "H2.Props.C02_alloc_matrix_exact",
    "H2.Props.C02_alloc_matrix_64bit_false"
   ],
   "note": "positive part for 32-bit dimensions, plus proof that the 64-bit claim is false of the code"
  },
  {
   "property": "C03",
   "status": "proved",
   "theorems": [
    "H2.Props.C03_memory_trace_exact",
    "H2.Props.C03_memory_trace_returns_to_zero",
    "H2.Props.C03_memory_trace_no_assert"
   ],
   "note": "all interleavings of the atomic actions"
  },
  {
   "property": "C04",
   "status": "proved",
   "theorems": [
    "H2.Props.C04_traced_alloc_fits",
    "H2.Props.C04_traced_alloc_false",
    "H2.Props.C04_traced_alloc_abort",
    "H2.Props.C04_traced_alloc_iff"
   ],
   "note": "Exact characterisation, including the gap in which the guard fails."
  },
  {
   "property": "C05",
   "status": "proved",
   "theorems": [
    "H2.Props.C05_budget_irrelevant",
    "H2.Props.C05_adaptive_terminates",
    "H2.Props.C05_rearranges"
   ],
   "note": "exact arithmetic over an arbitrary ordered field; dim > 0"
  },
  {
   "property": "C06",
   "status": "proved",
   "theorems": [
    "H2.Props.C06_partition",
    "H2.Props.C06_indices_once"
   ],
   "note": "all four modes"
  },
  {
   "property": "C07",
   "status": "proved",
   "theorems": [
    "H2.Props.C07_resolution"
   ],
   "note": "exact arithmetic"
  },
  {
   "property": "C08",
   "status": "proved",
   "theorems": [
    "H2.Props.C08_boxes_tight"
   ],
   "note": "all four modes"
  },
  {
   "property": "C09",
   "status": "proved",
   "theorems": [
    "H2.Props.C09_diverges",
    "H2.Props.C09_regular_terminates",
    "H2.Props.C09_simsub_terminates",
    "H2.Props.C09_pca_terminates"
   ],
   "note": "exact arithmetic; eigenvector routine of the PCA mode is a parameter"
  },
  {
   "property": "C10",
   "status": "proved",
   "theorems": [
    "H2.Props.C10_desc_built",
    "H2.Props.C10_depths",
    "H2.Props.C10_desc_exact",
    "H2.Props.C10_histories"
   ],
   "note": ""
  },
  {
   "property": "C11",
   "status": "proved",
   "theorems": [
    "H2.Props.C11_leaves_partition",
    "H2.Props.C11_adaptation_keeps_partition",
    "H2.Props.C11_adaptation_levels",
    "H2.Props.C11_balance_reaches_level",
    "H2.Props.C11_adaptation_shape"
   ],
   "note": ""
  },
  {
   "property": "C12",
   "status": "proved",
   "theorems": [
    "H2.Props.C12_enumerate",
    "H2.Props.C12_iterate",
    "H2.Props.C12_parallel"
   ],
   "note": "all schedules of the parallel iterator"
  },
  {
   "property": "C13",
   "status": "proved",
   "theorems": [
    "H2.Props.C13_leaves_partition",
    "H2.Props.C13_root"
   ],
   "note": "every admissibility predicate"
  },
  {
   "property": "C14",
   "status": "proved",
   "theorems": [
    "H2.Props.C14_nonstrict_labels",
    "H2.Props.C14_strict_labels"
   ],
   "note": ""
  },
  {
   "property": "C15",
   "status": "proved",
   "theorems": [
    "H2.Props.C15_lower_succeeds",
    "H2.Props.C15_lower_partition",
    "H2.Props.C15_lower_labels",
    "H2.Props.C15_lower_out_of_bounds"
   ],
   "note": "success, partition and labels under the son-count condition; out-of-bounds proved when it fails"
  },
  {
   "property": "C16",
   "status": "proved",
   "theorems": [
    "H2.Props.C16_enumerate",
    "H2.Props.C16_iterate",
    "H2.Props.C16_byrow",
    "H2.Props.C16_bycol",
    "H2.Props.C16_numbers",
    "H2.Props.C16_builders_ok"
   ],
   "note": ""
  },
  {
   "property": "C17",
   "status": "proved",
   "theorems": [
    "H2.Props.C17_byrow_race_free",
    "H2.Props.C17_bycol_race_free",
    "H2.Props.C17_byrow_deterministic",
    "H2.Props.C17_bycol_deterministic"
   ],
   "note": "all interleavings of the parallel sections"
  },
  {
   "property": "C18",
   "status": "proved",
   "theorems": [
    "H2.Props.C18_admissible_2",
    "H2.Props.C18_admissible_max",
    "H2.Props.C18_admissible_2_min",
    "H2.Props.C18_admissible_sphere",
    "H2.Props.C18_dimensions",
    "H2.Props.C18_symmetric",
    "H2.Props.C18_monotone_inherited"
   ],
   "note": "real arithmetic"
  },
  {
   "property": "C19",
   "status": "proved",
   "theorems": [
    "H2.Props.C19_pattern_is_set",
    "H2.Props.C19_out_of_range"
   ],
   "note": ""
  },
  {
   "property": "C20",
   "status": "proved",
   "theorems": [
    "H2.Props.C20_new_zero",
    "H2.Props.C20_sort",
    "H2.Props.C20_identity"
   ],
   "note": ""
  },
  {
   "property": "C21",
   "status": "proved",
   "theorems": [
    "H2.Props.C21_history",
    "H2.Props.C21_addentry_value",
    "H2.Props.C21_reject"
   ],
   "note": "exact arithmetic"
  },
  {
   "property": "C22",
   "status": "proved",
   "theorems": [
    "H2.Props.C22_addeval",
    "H2.Props.C22_addevaltrans",
    "H2.Props.C22_add_amatrix",
    "H2.Props.C22_add_amatrix_trans"
   ],
   "note": "exact arithmetic"
  },
  {
   "property": "C23",
   "status": "proved",
   "theorems": [
    "H2.Props.C23_square_ok",
    "H2.Props.C23_rectangular_false"
   ],
   "note": "the claim is false of the code: proved to fail for every rectangular matrix, to succeed for square ones"
  },
  {
   "property": "C24",
   "status": "proved",
   "theorems": [
    "H2.Props.C24_clear",
    "H2.Props.C24_identity",
    "H2.Props.C24_scale",
    "H2.Props.C24_conjugate",
    "H2.Props.C24_copy",
    "H2.Props.C24_copy_sub",
    "H2.Props.C24_copy_colpiv",
    "H2.Props.C24_add",
    "H2.Props.C24_addmul",
    "H2.Props.C24_mvm",
    "H2.Props.C24_dotprod",
    "H2.Props.C24_bidiagmul",
    "H2.Props.C24_vectors"
   ],
   "note": "All kernels of avector.c/amatrix.c named in the property (non-BLAS code), memory-level model with windows; exact arithmetic over any star field. Source and target windows are assumed disjoint (aliasing calls are not covered)."
  },
  {
   "property": "C25",
   "status": "proved",
   "theorems": [
    "H2.Props.C25_sub_matrix",
    "H2.Props.C25_nested",
    "H2.Props.C25_vectors"
   ],
   "note": "Views as memory windows: same cells, nesting, containment."
  },
  {
   "property": "C26",
   "status": "proved",
   "theorems": [
    "H2.Props.C26_pointer",
    "H2.Props.C26_pointer_overrun"
   ],
   "note": "Exact characterisation of a defect (cols is set to rows): the exact result, it is right iff rows = cols, and the resulting window overruns the buffer if cols < rows."
  },
  {
   "property": "C27",
   "status": "proved",
   "theorems": [
    "H2.Props.C27_lower",
    "H2.Props.C27_upper",
    "H2.Props.C27_upper_empty"
   ],
   "note": "clear_lower: full. clear_upper: full except strict=false with rows=0 and cols>0, where an out-of-bounds write is proved."
  },
  {
   "property": "C28",
   "status": "proved",
   "theorems": [
    "H2.Props.C28_resizecopy"
   ],
   "note": "With a correct allocator (fresh cells, arbitrary contents)."
  },
  {
   "property": "C29",
   "status": "proved",
   "theorems": [
    "H2.Props.C29_invertible",
    "H2.Props.C29_selfadjoint",
    "H2.Props.C29_spd"
   ],
   "note": "Over RCLike fields; the random generator is an arbitrary function."
  },
  {
   "property": "C30",
   "status": "proved",
   "theorems": [
    "H2.Props.C30_mvm",
    "H2.Props.C30_adjoint",
    "H2.Props.C30_add_amatrix",
    "H2.Props.C30_scale",
    "H2.Props.C30_sub",
    "H2.Props.C30_copy_same_rank",
    "H2.Props.C30_copy_new_rank"
   ],
   "note": "Memory-level model; requires both factors to have k columns (which the library maintains) and windows disjoint from the target. add_rkmatrix_amatrix uses all columns of the factors, the others only the first k."
  },
  {
   "property": "C31",
   "status": "proved",
   "theorems": [
    "H2.Props.C31_findrank"
   ],
   "note": "Exact arithmetic, decreasing singular values; all modes including tm = NULL."
  },
  {
   "property": "C32",
   "status": "proved",
   "theorems": [
    "H2.Props.C32_addeval",
    "H2.Props.C32_addevaltrans",
    "H2.Props.C32_mvm",
    "H2.Props.C32_adjoint",
    "H2.Props.C32_scale",
    "H2.Props.C32_built_ok"
   ],
   "note": "Exact arithmetic over any field with involution; memory-level model including the permuted temporary vectors; also scale_hmatrix."
  },
  {
   "property": "C33",
   "status": "proved",
   "theorems": [
    "H2.Props.C33_addevalsymm",
    "H2.Props.C33_built_ok",
    "H2.Props.C33_lowrank_diagonal_fails"
   ],
   "note": "Exact arithmetic; diagonal leaves dense (otherwise an assertion fails, also proved)."
  },
  {
   "property": "C34",
   "status": "proved",
   "theorems": [
    "H2.Props.C34_roundtrip",
    "H2.Props.C34_roundtrip_built"
   ],
   "note": "Round trip holds iff subdivided blocks are not flagged admissible; holds for all four builders."
  },
  {
   "property": "C35",
   "status": "proved",
   "theorems": [
    "H2.Props.C35_safe",
    "H2.Props.C35_counts",
    "H2.Props.C35_no_dangling",
    "H2.Props.C35_deleted_iff",
    "H2.Props.C35_no_leak",
    "H2.Props.C35_self_assignment"
   ],
   "note": "Every history of legal operations (typed pointers, clients keep a way to reach objects they own, only completed objects are referenced) on a heap of H-matrices, H2-matrices, cluster bases and uniform matrices; the use-after-free of ref_x(&p, p) with a single reference is proved as well. Deletion with sub-objects, list maintenance; the numerical contents are not part of this model."
  },
  {
   "property": "C36",
   "status": "proved",
   "theorems": [
    "H2.Props.C36_lists",
    "H2.Props.C36_bases",
    "H2.Props.C36_registered"
   ],
   "note": "Invariant over all histories; rows and columns."
  },
  {
   "property": "C37",
   "status": "proved",
   "theorems": [
    "H2.Props.C37_second_release",
    "H2.Props.C37_del_after_release"
   ],
   "note": "Exact characterisation (second release is a no-op iff the uniform matrix had no neighbour in the list, an assertion failure otherwise, also from del_uniform)."
  },
  {
   "property": "C38",
   "status": "proved",
   "theorems": [
    "H2.Props.C38_forward",
    "H2.Props.C38_forward_nopermutation",
    "H2.Props.C38_backward",
    "H2.Props.C38_addAt_entry",
    "H2.Props.C38_backward_nopermutation",
    "H2.Props.C38_forward_notransfer",
    "H2.Props.C38_backward_notransfer",
    "H2.Props.C38_adjoint",
    "H2.Props.C38_layout",
    "H2.Props.C38_update"
   ],
   "note": "Forward and backward transformation (with and without permutation, with and without transfer matrices), adjointness, layout, update. Sequential code; the OpenMP variants are not modelled."
  },
  {
   "property": "C39",
   "status": "proved",
   "theorems": [
    "H2.Props.C39_forward",
    "H2.Props.C39_forward_nopermutation",
    "H2.Props.C39_backward",
    "H2.Props.C39_backward_nopermutation",
    "H2.Props.C39_forward_notransfer_leak",
    "H2.Props.C39_backward_notransfer_leak",
    "H2.Props.C39_leaves_pos"
   ],
   "note": "Counter restored by the nested transformations; exact growth (one per leaf) for the notransfer variants."
  },
  {
   "property": "C40",
   "status": "proved",
   "theorems": [
    "H2.Props.C40_addeval",
    "H2.Props.C40_addevaltrans",
    "H2.Props.C40_mvm",
    "H2.Props.C40_entry",
    "H2.Props.C40_sons",
    "H2.Props.C40_adjoint"
   ],
   "note": "addeval, addevaltrans and mvm for every H2-matrix, every allocator address, with release of the temporaries and the frame condition; the represented matrix is characterised by C40_entry and C40_sons. addevalsymm_h2matrix_avector is not modelled."
  },
  {
   "property": "C41",
   "status": "proved",
   "theorems": [
    "H2.Props.C41_lrdecomp",
    "H2.Props.C41_unique",
    "H2.Props.C41_lrsolve_vec",
    "H2.Props.C41_lrsolve_mat",
    "H2.Props.C41_lreval_vec",
    "H2.Props.C41_empty"
   ],
   "note": "lrdecomp (return value = order of the first vanishing leading minor, factors, uniqueness), lrsolve for vectors and matrices, lreval, every leading dimension; the empty matrix reads out of bounds (C41_empty). Code without BLAS."
  },
  {
   "property": "C42",
   "status": "proved",
   "theorems": [
    "H2.Props.C42_blocks",
    "H2.Props.C42_tasks",
    "H2.Props.C42_tasks_terminate",
    "H2.Props.C42_tasks_twice",
    "H2.Props.C42_tasks_defect",
    "H2.Props.C42_blocksize_zero"
   ],
   "note": "lrdecomp_blocks: same return value and factors for every size and block size without uint overflow. lrdecomp_tasks: every interleaving of the single memory accesses of the tasks gives these factors, except for block size = n, where the missing return factorizes twice (C42_tasks_twice, C42_tasks_defect)."
  },
  {
   "property": "C43",
   "status": "proved",
   "theorems": [
    "H2.Props.C43_solve_vec",
    "H2.Props.C43_solve_mat",
    "H2.Props.C43_eval_vec",
    "H2.Props.C43_eval_mat",
    "H2.Props.C43_eval_solve",
    "H2.Props.C43_solve_eval",
    "H2.Props.C43_diag_vec",
    "H2.Props.C43_diag_mat"
   ],
   "note": "Triangular solves and products for vectors and matrices, plain and adjoint, unit and non-unit, rectangular matrices; they invert each other; solves with and products by the diagonal."
  },
  {
   "property": "C44",
   "status": "proved",
   "theorems": [
    "H2.Props.C44_choldecomp",
    "H2.Props.C44_ldltdecomp",
    "H2.Props.C44_cholsolve_vec",
    "H2.Props.C44_cholsolve_mat",
    "H2.Props.C44_choleval_vec",
    "H2.Props.C44_ldltsolve_vec",
    "H2.Props.C44_ldltsolve_mat",
    "H2.Props.C44_empty"
   ],
   "note": "choldecomp (result = order of the first leading block that is not positive definite, L L^* = A), ldltdecomp (first vanishing minor, L D L^* = A), the upper triangle is never touched, and the solves and products that use the factors. Real diagonal assumed (exact arithmetic); empty matrices read out of bounds (C44_empty). Code without BLAS."
  },
  {
   "property": "C45",
   "status": "proved",
   "theorems": [
    "H2.Props.C45_solve_dense",
    "H2.Props.C45_solve",
    "H2.Props.C45_lrdecomp",
    "H2.Props.C45_triangularsolve",
    "H2.Props.C45_lrsolve",
    "H2.Props.C45_lrdecomp_lrsolve",
    "H2.Props.C45_cholsolve"
   ],
   "note": "triangular solves, LR decomposition (exact characterisation incl. failure) and solves for all block structures; truncated operations are assumed lossless (contract Lossless, shown satisfiable), pivots exact; choldecomp_hmatrix itself not covered"
  },
  {
   "property": "C46",
   "status": "proved",
   "theorems": [
    "H2.Props.C46_add",
    "H2.Props.C46_addmul",
    "H2.Props.C46_add_hmatrix_amatrix",
    "H2.Props.C46_add_amatrix_hmatrix",
    "H2.Props.C46_add_rkmatrix_hmatrix",
    "H2.Props.C46_addmul_hmatrix_amatrix",
    "H2.Props.C46_lossless_exists",
    "H2.Props.C46_built_ok",
    "H2.Props.C46_built_std_strict",
    "H2.Props.C46_built_std_nonstrict",
    "H2.Props.C46_add_amatrix_hmatrix_adjoint_wrong"
   ],
   "note": "add_hmatrix, addmul_hmatrix (all adjoint combinations), add_amatrix/rkmatrix_hmatrix, add_hmatrix_amatrix, addmul_hmatrix_amatrix_amatrix with split/merge of leaves, value-level dense and low-rank matrices (windows are taken out and put back). Truncated low-rank additions are parameters meeting the contract Lossless, which exactOps meets. Block structures must follow the cluster trees (HVStd), as the strict and non-strict builders produce. add_amatrix_hmatrix with atrans on subdivided targets is wrong (C46_add_amatrix_hmatrix_adjoint_wrong)."
  },
  {
   "property": "C47",
   "status": "proved",
   "theorems": [
    "H2.Props.C47_cg",
    "H2.Props.C47_cg_defined",
    "H2.Props.C47_pcg",
    "H2.Props.C47_pcg_defined",
    "H2.Props.C47_bicg",
    "H2.Props.C47_bicg_defined",
    "H2.Props.C47_bicgstab",
    "H2.Props.C47_bicgstab_defined",
    "H2.Props.C47_uzawa",
    "H2.Props.C47_uzawa_defined",
    "H2.Props.C47_puzawa",
    "H2.Props.C47_puzawa_defined",
    "H2.Props.C47_callback_addeval",
    "H2.Props.C47_callback_addevaltrans",
    "H2.Props.C47_callback_mvm"
   ],
   "note": "CG, PCG, BiCG, BiCGStab, Uzawa, preconditioned Uzawa: after any number of steps the residual vector is the residual of the iterate, the right-hand side and everything outside the vectors is unchanged, and a step divides by zero exactly under the stated condition. Callbacks are arbitrary functions meeting IsAddEval / IsMvm / IsPrcd; the dense kernels are shown to meet them. GMRES is not modelled here."
  },
  {
   "property": "C48",
   "status": "proved",
   "theorems": [
    "H2.Props.C48_cg",
    "H2.Props.C48_pcg",
    "H2.Props.C48_evalfunctional",
    "H2.Props.C48_uzawa",
    "H2.Props.C48_puzawa"
   ],
   "note": "CG, PCG and both Uzawa methods for positive definite matrices: conjugate directions, minimal energy over the Krylov space, termination after at most n steps with the exact solution, and the next step divides by zero (CgRun.nan); evalfunctional_cg evaluates the energy. Exact arithmetic over RCLike fields."
  },
  {
   "property": "C49",
   "status": "proved",
   "theorems": [
    "H2.Props.C49_roundtrip",
    "H2.Props.C49_prefix",
    "H2.Props.C49_read_terminates",
    "H2.Props.C49_dim_zero"
   ],
   "note": "NetCDF files modelled as tables of named dimensions and variables (uniqueness of names, one unlimited dimension, bounds checks); sizes as natural numbers. Files of cluster trees, with and without prefixes; termination on arbitrary files; dimension 0 proved to fail. hmatrix and clusterbasis files: see later properties."
  },
  {
   "property": "C50",
   "status": "proved",
   "theorems": [
    "H2.Props.C50_fullaca",
    "H2.Props.C50_full_rank_exact",
    "H2.Props.C50_rank",
    "H2.Props.C50_fullaca_exact",
    "H2.Props.C50_partialaca",
    "H2.Props.C50_partialaca_zero",
    "H2.Props.C50_copy_lower",
    "H2.Props.C50_copy_upper"
   ],
   "note": "Full and partial cross approximation at memory level over RCLike fields, with an arbitrary correct allocator and callback. The partial variant divides by zero if the selected remainder row vanishes; proved impossible for linearly independent rows and unavoidable for zero matrices (C50_partialaca_zero). It requires the factors passed in to have ld = rows, as the code does."
  },
  {
   "property": "C51",
   "status": "proved",
   "theorems": [
    "H2.Props.C51_check",
    "H2.Props.C51_consistent_checked",
    "H2.Props.C51_checked_consistent",
    "H2.Props.C51_check_incomplete",
    "H2.Props.C51_refine",
    "H2.Props.C51_refine_times",
    "H2.Props.C51_getvertices",
    "H2.Props.C51_tiles",
    "H2.Props.C51_builtin"
   ],
   "note": "refine_tri2d, check_tri2d, getvertices_tri2d and the four built-in meshes, memory-level arrays with bounds checks, coordinates in any (ordered) field; counters as naturals (no 32-bit wrap). The library check is characterised exactly; it is weaker than consistency (witness), equivalent for meshes without double or degenerate edges."
  },
  {
   "property": "C52",
   "status": "proved",
   "theorems": [
    "H2.Props.C52_enumerate_level",
    "H2.Props.C52_getdepth",
    "H2.Props.C52_compute_csp"
   ],
   "note": ""
  },
  {
   "property": "C53",
   "status": "proved",
   "theorems": [
    "H2.Props.C53_lower_bound",
    "H2.Props.C53_diff_lower_bound"
   ],
   "note": "exact real arithmetic"
  },
  {
   "property": "C54",
   "status": "proved",
   "theorems": [
    "H2.Props.C54_bicg",
    "H2.Props.C54_complex"
   ],
   "note": "Real fields: biorthogonality, biconjugacy, at most n steps. Complex fields: C54_complex shows that the first step fails for a 1x1 system unless the coefficient is real."
  },
  {
   "property": "C55",
   "status": "proved",
   "theorems": [
    "H2.Props.C55_build",
    "H2.Props.C55_build_rejects",
    "H2.Props.C55_fixnormals",
    "H2.Props.C55_refine_oriented"
   ],
   "note": "tri2dbuilder with its linked lists as lists, fixnormals_tri2d; success is characterised exactly; coordinates in an ordered field."
  },
  {
   "property": "C56",
   "status": "proved",
   "theorems": [
    "H2.Props.C56_sign_real",
    "H2.Props.C56_sign_complex",
    "H2.Props.C56_sign_complex_defect",
    "H2.Props.C56_qr",
    "H2.Props.C56_qr_exact",
    "H2.Props.C56_pivot",
    "H2.Props.C56_rank",
    "H2.Props.C56_eval",
    "H2.Props.C56_eval_mat",
    "H2.Props.C56_expand",
    "H2.Props.C56_solve",
    "H2.Props.C56_invert"
   ],
   "note": "Code without BLAS, memory level, RCLike fields, exact real arithmetic. Columns of squared norm at most H2_ALMOST_ZERO are skipped, and the complex SIGN1 has the wrong phase for such numbers (C56_sign_complex_defect): the factorization is exact up to max(tiny, 4 tiny) per column, exactly in the idealised case (C56_qr_exact). The relative truncation modes return at least one for non-empty matrices."
  },
  {
   "property": "C57",
   "status": "proved",
   "theorems": [
    "H2.Props.C57_copy_lower",
    "H2.Props.C57_copy_upper",
    "H2.Props.C57_copy_square",
    "H2.Props.C57_addmul",
    "H2.Props.C57_addmul_assert"
   ],
   "note": "Code without BLAS, memory level. copy_lower leaves rows beyond those of a untouched, copy_upper leaves columns beyond those of a untouched (stated exactly)."
  },
  {
   "property": "C58",
   "status": "proved",
   "theorems": [
    "H2.Props.C58_ortho",
    "H2.Props.C58_ortho_exact",
    "H2.Props.C58_weight_dims",
    "H2.Props.C58_weight",
    "H2.Props.C58_weight_norm",
    "H2.Props.C58_check",
    "H2.Props.C58_check_zero",
    "H2.Props.C58_ortho_check",
    "H2.Props.C58_compress",
    "H2.Props.C58_basisproduct"
   ],
   "note": "Matrices of the bases are values, every factorization runs at memory level on a copy (C56, C57). Orthonormality, dimensions and counters hold for every H2_ALMOST_ZERO >= 0 and sign function; equality of the spans and C^*C = V^*V are proved for an exact zero test (tiny = 0), because columns below the threshold are dropped. The lists of uniform matrices of a basis are not represented."
  },
  {
   "property": "C59",
   "status": "proved",
   "theorems": [
    "H2.Props.C59_uniform_add",
    "H2.Props.C59_uniform_inplace",
    "H2.Props.C59_uniform_exact",
    "H2.Props.C59_build",
    "H2.Props.C59_exact",
    "H2.Props.C59_ortho",
    "H2.Props.C59_best"
   ],
   "note": "Bases are values with an identity (tree number and path) for the pointer comparisons; matrices are values; reference counters and lists of uniform matrices are C35/C37. The in-place variant for whole H2-matrices (project_inplace_h2matrix) is not modelled."
  },
  {
   "property": "C60",
   "status": "proved",
   "theorems": [
    "H2.Props.C60_collect",
    "H2.Props.C60_project_dense",
    "H2.Props.C60_project_dense_zero",
    "H2.Props.C60_build_dense",
    "H2.Props.C60_project_h",
    "H2.Props.C60_build_h",
    "H2.Props.C60_best",
    "H2.Props.C60_exact"
   ],
   "note": "Finding: project_amatrix_h2matrix dereferences a null pointer for leaves without content (C60_project_dense_zero); such leaves are excluded by the hypothesis NoZero. project_hmatrix_h2matrix does not check that the structures match; matching structure is a hypothesis."
  },
  {
   "property": "C61",
   "status": "proved",
   "theorems": [
    "H2.Props.C61_new",
    "H2.Props.C61_nearfield",
    "H2.Props.C61_coupling",
    "H2.Props.C61_basis",
    "H2.Props.C61_flat",
    "H2.Props.C61_h2matrix",
    "H2.Props.C61_polynomial"
   ],
   "note": "Findings: clusters whose bounding box has a side of length zero (for example clusters with one point) lead to 0/0 for m >= 2 (C61_flat), so non-degenerate boxes are a hypothesis; new_kernelmatrix without points writes out of bounds (C61_new)."
  },
  {
   "property": "C62",
   "status": "proved",
   "theorems": [
    "H2.Props.C62_cg",
    "H2.Props.C62_pcg"
   ],
   "note": "Observation: maxiter = 1 performs no step at all (iter + 1 != maxiter), which is what the theorem states (iter < maxiter). The typed wrappers only fix the callback (C47_callback_* shows that dense matrices satisfy the contract)."
  },
  {
   "property": "C63",
   "status": "proved",
   "theorems": [
    "H2.Props.C63_rank",
    "H2.Props.C63_exact",
    "H2.Props.C63_trunc",
    "H2.Props.C63_add",
    "H2.Props.C63_add_dense",
    "H2.Props.C63_add_dense_defect",
    "H2.Props.C63_merge_col",
    "H2.Props.C63_merge_row",
    "H2.Props.C63_lossless",
    "H2.Props.C63_not_lossless",
    "H2.Props.C63_lrdecomp"
   ],
   "note": "svd_amatrix is a parameter assumed to compute an exact singular value decomposition of every matrix (existence of such a function is proved); QR, triangular products, copies are the modelled library functions. For complex coefficients add_amatrix_rkmatrix uses conj(alpha) when rows < cols: C63_add_dense states what the code does, C63_add_dense_defect and C63_not_lossless prove the defect."
  },
  {
   "property": "C64",
   "status": "proved",
   "theorems": [
    "H2.Props.C64_coarsen",
    "H2.Props.C64_error_absolute",
    "H2.Props.C64_error_relative",
    "H2.Props.C64_exact"
   ],
   "note": "Exact arithmetic; svd_amatrix as in C63. The test G->rc == G->cc is a parameter. Relative error bound for the Frobenius norm; for relative spectral tolerances only structure, storage, minimality and exactness for eps = 0 are claimed. Leaves without r and f (assertion failure in the code) are not part of the model."
  },
  {
   "property": "C65",
   "status": "proved",
   "theorems": [
    "H2.Props.C65_addmul_lower",
    "H2.Props.C65_addmul_lower_defect",
    "H2.Props.C65_choldecomp",
    "H2.Props.C65_choldecomp_real",
    "H2.Props.C65_choldecomp_cholsolve"
   ],
   "note": "Exact arithmetic over the reals or complex numbers; the truncated operations are assumed to be lossless (C63 provides this for the library operations over the reals with tolerance zero, see C65_choldecomp_real). add_lower_amatrix_hmatrix is only covered with atrans = false, the only value used by the library. The defect of addmul_lower_hmatrix (harith.c:3547) is proved as C65_addmul_lower_defect."
  },
  {
   "property": "C66",
   "status": "proved",
   "theorems": [
    "H2.Props.C66_steps",
    "H2.Props.C66_full",
    "H2.Props.C66_tie",
    "H2.Props.C66_overrun",
    "H2.Props.C66_solve",
    "H2.Props.C66_psolve",
    "H2.Props.C66_single_cycle",
    "H2.Props.C66_one_column",
    "H2.Props.C66_complex_defect"
   ],
   "note": "Exact real arithmetic. The breakdown in which A q_k is orthogonal to the current residual direction leads to 1 / 0 in findapply_givens; it is excluded by the regularity hypothesis (outcome nan in the model, IEEE infinity is not modelled). Steps that do not reduce the residual and steps beyond the dimension are excluded in C66_steps; C66_tie, C66_overrun, C66_one_column and C66_complex_defect show what happens outside. solve_gmres (krylov.c:772-824), which prints to stdout, is not modelled."
  },
  {
   "property": "C67",
   "status": "proved",
   "theorems": [
    "H2.Props.C67_invert",
    "H2.Props.C67_invert_pd",
    "H2.Props.C67_invert_real",
    "H2.Props.C67_invert_rk"
   ],
   "note": "Exact arithmetic; lossless truncated operations are an assumption in C67_invert and C67_invert_pd, it is discharged for the operations of the library over the reals with tolerance zero in C67_invert_real. Only the regular case is stated: for a singular dense diagonal leaf the code divides by zero, the outcome of which is not modelled. tiny = 0 stands for H2_ALMOST_ZERO."
  },
  {
   "property": "C68",
   "status": "proved",
   "theorems": [
    "H2.Props.C68_norm2",
    "H2.Props.C68_diff",
    "H2.Props.C68_pre",
    "H2.Props.C68_id_pre",
    "H2.Props.C68_norm2_amatrix",
    "H2.Props.C68_diff_amatrix",
    "H2.Props.C68_zero_iff"
   ],
   "note": "Exact arithmetic; the callbacks are assumed to perform the products (the contract is proved for mvm_amatrix_avector in C47_callback_mvm). norm2_sparsematrix passes wrong sizes (C53). The random numbers are arbitrary."
  },
  {
   "property": "C69",
   "status": "proved",
   "theorems": [
    "H2.Props.C69_adaptive",
    "H2.Props.C69_regular",
    "H2.Props.C69_adaptive_stops",
    "H2.Props.C69_adaptive_assert",
    "H2.Props.C69_interface_dim_one",
    "H2.Props.C69_blocks",
    "H2.Props.C69_nonstrict_same"
   ],
   "note": "Stated as an exact description of what the code does, including two defects (reachable assert(0), infinite recursion for dim = 1). Termination of the regular version is not claimed (it does not terminate for more than clf coincident points). The variants building from a cluster tree of elements are not modelled."
  },
  {
   "property": "C70",
   "status": "proved",
   "theorems": [
    "H2.Props.C70_mul_dense",
    "H2.Props.C70_mul",
    "H2.Props.C70_mul_defect",
    "H2.Props.C70_triangulareval",
    "H2.Props.C70_lreval",
    "H2.Props.C70_lrdecomp_lreval",
    "H2.Props.C70_choleval"
   ],
   "note": "Exact arithmetic; truncated operations are a parameter with the Lossless contract for the H-matrix operand (discharged over the reals by C63 with eps = 0); C70_mul needs RowsMatch in the one case in which the program checks the wrong number of sons, C70_mul_defect shows that the program fails otherwise."
  },
  {
   "property": "C71",
   "status": "proved",
   "theorems": [
    "H2.Props.C71_qrstep",
    "H2.Props.C71_muleig",
    "H2.Props.C71_definite",
    "H2.Props.C71_eig_tridiag",
    "H2.Props.C71_zero"
   ],
   "note": "Exact real arithmetic: the bound counts deflation and block splitting errors, not rounding. Non-termination for maxiter = 0 is modelled by fuel. C71_zero proves the division by zero (NaN) for the zero matrix."
  },
  {
   "property": "C72",
   "status": "proved",
   "theorems": [
    "H2.Props.C72_tridiagonalize",
    "H2.Props.C72_similar",
    "H2.Props.C72_unreduced",
    "H2.Props.C72_null",
    "H2.Props.C72_defect"
   ],
   "note": "Exact arithmetic. C72_defect proves that Q T Q^T differs from A for a positive definite 4x4 matrix whose second column vanishes during the elimination; C72_null: Q == NULL is dereferenced by the assertions."
  },
  {
   "property": "C73",
   "status": "proved",
   "theorems": [
    "H2.Props.C73_eigenvalues",
    "H2.Props.C73_eigenvectors",
    "H2.Props.C73_cyclic",
    "H2.Props.C73_definite",
    "H2.Props.C73_null",
    "H2.Props.C73_zero",
    "H2.Props.C73_empty",
    "H2.Props.C73_defect"
   ],
   "note": "Exact arithmetic; errors are those of the thresholds, not of rounding. C73_defect: for a positive definite matrix the returned Q diag(lambda) Q^T differs from A by at least one. C73_zero, C73_null, C73_empty state the other deviations from the documentation."
  },
  {
   "property": "C74",
   "status": "proved",
   "theorems": [
    "H2.Props.C74_truncate",
    "H2.Props.C74_accuracy",
    "H2.Props.C74_local",
    "H2.Props.C74_unweighted",
    "H2.Props.C74_sum",
    "H2.Props.C74_exact",
    "H2.Props.C74_exact_matrix",
    "H2.Props.C74_not_full"
   ],
   "note": "Exact arithmetic; svd_amatrix is a parameter that computes a singular value decomposition. Accuracy is proved for the absolute modes (and tolerance zero in all modes). Total weights have to be nested (Inherits)."
  },
  {
   "property": "C75",
   "status": "proved",
   "theorems": [
    "H2.Props.C75_local",
    "H2.Props.C75_accumulate",
    "H2.Props.C75_total",
    "H2.Props.C75_null",
    "H2.Props.C75_total_ortho"
   ],
   "note": "Exact arithmetic; norm2_amatrix (power iteration) is assumed to return the spectral norm if blocks are scaled by spectral norms; serial iteration. Defect: enumerate_clusteroperator dereferences null operators (C75_null, C75_total_ortho)."
  },
  {
   "property": "C76",
   "status": "proved",
   "theorems": [
    "H2.Props.C76_sequence",
    "H2.Props.C76_symmetric",
    "H2.Props.C76_hermitian",
    "H2.Props.C76_mismatch",
    "H2.Props.C76_ortho",
    "H2.Props.C76_lost",
    "H2.Props.C76_defect"
   ],
   "note": "Exact arithmetic; SVD by its contract; norm2_amatrix exact if blocks are scaled by spectral norms. The sequence of calls satisfies the documented error bounds (C76_sequence); compress_h2matrix_h2matrix exchanges the weights (h2compression.c:74, 78): exact consequences in C76_hermitian, C76_symmetric, C76_mismatch, C76_lost, C76_defect, C76_ortho."
  },
  {
   "property": "C77",
   "status": "proved",
   "theorems": [
    "H2.Props.C77_numbering",
    "H2.Props.C77_build",
    "H2.Props.C77_build_interaction",
    "H2.Props.C77_build_empty",
    "H2.Props.C77_pattern",
    "H2.Props.C77_laplace",
    "H2.Props.C77_gradients",
    "H2.Props.C77_energy",
    "H2.Props.C77_definite",
    "H2.Props.C77_laplace_degenerate",
    "H2.Props.C77_mass",
    "H2.Props.C77_mass_form",
    "H2.Props.C77_dirichlet",
    "H2.Props.C77_functional",
    "H2.Props.C77_functional_exact",
    "H2.Props.C77_normmax",
    "H2.Props.C77_norml2",
    "H2.Props.C77_norml2_exact",
    "H2.Props.C77_prolongation",
    "H2.Props.C77_prolonged",
    "H2.Props.C77_galerkin"
   ],
   "note": "Real build, exact arithmetic. Integrals are iterated interval integrals over the reference triangle. build_tri2dp1_clustergeometry is not modelled."
  },
  {
   "property": "C78",
   "status": "proved",
   "theorems": [
    "H2.Props.C78_rule",
    "H2.Props.C78_exact",
    "H2.Props.C78_unique",
    "H2.Props.C78_own",
    "H2.Props.C78_empty"
   ],
   "note": "Exact arithmetic. The eigenvalue solver is a parameter with a backward error contract; the contract is proved for the library solver without BLAS (C71)."
  },
  {
   "property": "C79",
   "status": "proved",
   "theorems": [
    "H2.Props.C79_check",
    "H2.Props.C79_closed",
    "H2.Props.C79_oriented",
    "H2.Props.C79_closed_oriented",
    "H2.Props.C79_prepare",
    "H2.Props.C79_degenerate",
    "H2.Props.C79_translate",
    "H2.Props.C79_scale",
    "H2.Props.C79_merge_ub",
    "H2.Props.C79_merge_slack",
    "H2.Props.C79_scale_defect"
   ],
   "note": "Exact real arithmetic; printing of messages is not modelled. C79_scale_defect and C79_merge_ub prove that two functions violate their documentation."
  },
  {
   "property": "C80",
   "status": "proved",
   "theorems": [
    "H2.Props.C80_refine",
    "H2.Props.C80_widths",
    "H2.Props.C80_repeated"
   ],
   "note": "Exact real arithmetic."
  },
  {
   "property": "C81",
   "status": "proved",
   "theorems": [
    "H2.Props.C81_lowersolve",
    "H2.Props.C81_uppersolve",
    "H2.Props.C81_lrsolve",
    "H2.Props.C81_cholsolve",
    "H2.Props.C81_leaf"
   ],
   "note": "Exact arithmetic over any star field; temporary vectors come from an allocator that returns unused memory (FreshAlloc)."
  },
  {
   "property": "C82",
   "status": "proved",
   "theorems": [
    "H2.Props.C82_compress",
    "H2.Props.C82_expand",
    "H2.Props.C82_addeval",
    "H2.Props.C82_addevaltrans",
    "H2.Props.C82_uniform",
    "H2.Props.C82_counts"
   ],
   "note": "Exact arithmetic over any star field; temporary vectors come from an allocator that returns unused memory (FreshAlloc)."
  },
  {
   "property": "C83",
   "status": "proved",
   "theorems": [
    "H2.Props.C83_forward",
    "H2.Props.C83_backward",
    "H2.Props.C83_backward_trans_partial",
    "H2.Props.C83_backward_trans_fails",
    "H2.Props.C83_compress",
    "H2.Props.C83_compress_parallel_wrong",
    "H2.Props.C83_backward_trans_wrong"
   ],
   "note": "Exact arithmetic over any star field. The negative parts (backward_clusterbasis_trans_amatrix with sons, compress_parallel_clusterbasis_amatrix) are proved as a failing assertion for all matching arguments and as counterexamples; C83_backward_trans_partial is the part of the intended property that holds."
  },
  {
   "property": "C84",
   "status": "proved",
   "theorems": [
    "H2.Props.C84_copy_sparse",
    "H2.Props.C84_copy_sparse_exact",
    "H2.Props.C84_clear",
    "H2.Props.C84_identity",
    "H2.Props.C84_identity_lowrank_zero",
    "H2.Props.C84_clear_upper",
    "H2.Props.C84_clear_upper_stops",
    "H2.Props.C84_copy",
    "H2.Props.C84_copy_mismatch",
    "H2.Props.C84_copy_sparse_window_wrong"
   ],
   "note": "Exact arithmetic. copy_sparsematrix_hmatrix on memory, the other functions on values of H-matrices. The leading dimension problem is proved as a counterexample (C84_copy_sparse_window_wrong)."
  },
  {
   "property": "C85",
   "status": "proved",
   "theorems": [
    "H2.Props.C85_chebyshev",
    "H2.Props.C85_lagrange_poly",
    "H2.Props.C85_points",
    "H2.Props.C85_lagrange",
    "H2.Props.C85_lagrange_nan",
    "H2.Props.C85_lagrange_exact",
    "H2.Props.C85_lagrange_const",
    "H2.Props.C85_dn_lagrange_const",
    "H2.Props.C85_dn_lagrange_const_nan",
    "H2.Props.C85_inter_row",
    "H2.Props.C85_nested",
    "H2.Props.C85_dn_lagrange_const_witness"
   ],
   "note": "Exact arithmetic; the cosine only for the reference points, over the reals. kernel_col enters as a contract. The division by zero in the normal derivatives is proved (C85_dn_lagrange_const_nan, C85_dn_lagrange_const_witness)."
  },
  {
   "property": "C86",
   "status": "partial",
   "theorems": [
    "H2.Props.C86_left",
    "H2.Props.C86_left_dims",
    "H2.Props.C86_right_partial",
    "H2.Props.C86_right_alpha",
    "H2.Props.C86_right_fails",
    "H2.Props.C86_right_adjoints",
    "H2.Props.C86_right_adjoints_wrong"
   ],
   "note": "The left product is proved completely. The right product is wrong in the code: proved where correct (C86_right_partial), otherwise characterised (C86_right_alpha, C86_right_fails, C86_right_adjoints, C86_right_adjoints_wrong); not covered: a basis with sons and a Y with as many rows as the first son has indices."
  },
  {
   "property": "C87",
   "status": "proved",
   "theorems": [
    "H2.Props.C87_clear",
    "H2.Props.C87_scale",
    "H2.Props.C87_convert"
   ],
   "note": "The counter of active dense matrices is left out. The coefficients of different leaves must not overlap."
  },
  {
   "property": "C88",
   "status": "proved",
   "theorems": [
    "H2.Props.C88_frobenius",
    "H2.Props.C88_check",
    "H2.Props.C88_zero_iff",
    "H2.Props.C88_isometry"
   ],
   "note": "Variants without BLAS in exact arithmetic."
  },
  {
   "property": "C89",
   "status": "partial",
   "theorems": [
    "H2.Props.C89_kernel_2d",
    "H2.Props.C89_dny_2d_partial",
    "H2.Props.C89_dnx_dny_2d_partial",
    "H2.Props.C89_dnx_dny_2d_false",
    "H2.Props.C89_kernel_c_2d",
    "H2.Props.C89_dnz_c_2d",
    "H2.Props.C89_dcol_c_2d_partial",
    "H2.Props.C89_dnzdcol_c_2d_partial",
    "H2.Props.C89_kernels_3d",
    "H2.Props.C89_fill_3d",
    "H2.Props.C89_fill_dny_3d",
    "H2.Props.C89_fill_dnx_dny_3d"
   ],
   "note": "Proved in three dimensions and for the derivative in the first argument. In two dimensions the code is wrong: fill_dny_kernel_laplacebem2d, fill_dcol_kernel_col_c_laplacebem2d and fill_dnzdcol_kernel_c_laplacebem2d compute the negative of the derivative, and fill_dnx_dny_kernel_laplacebem2d neither the mixed derivative nor its negative (sign of the term with 2.0 * dot); the exact values are proved. Exact real arithmetic; SIMD variants are not modelled."
  },
  {
   "property": "C90",
   "status": "proved",
   "theorems": [
    "H2.Props.C90_expand",
    "H2.Props.C90_expand_identity",
    "H2.Props.C90_adjoint"
   ],
   "note": "Exact field arithmetic; the case of one thread."
  },
  {
   "property": "C91",
   "status": "proved",
   "theorems": [
    "H2.Props.C91_enumerate",
    "H2.Props.C91_enumerate_coarser",
    "H2.Props.C91_enumerate_assert",
    "H2.Props.C91_built"
   ],
   "note": "Matrices with numbers of sons different from the block count as errors also without assertions."
  },
  {
   "property": "C92",
   "status": "proved",
   "theorems": [
    "H2.Props.C92_clone",
    "H2.Props.C92_clone_matrix"
   ],
   "note": "Successful allocations; reference counters are treated in C35."
  }
 ]
}