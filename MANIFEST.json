{"claims": [
 {"property": "C01", "status": "proved", "theorems": ["C01_dictionary", "C01_nested_read", "C01_nested_frame"], "note": ""},
 {"property": "C02", "status": "partial", "theorems": ["C02_failed_read_consumes_nothing", "C02_next_in_order_partial", "C02_popFront_is_queue_partial", "C02_size", "C02_mixed_reads_skip"], "note": "mixing popFront and next skips tokens: proved as a violation"},
 {"property": "C03", "status": "partial", "theorems": ["C03_ids_unique_partial", "C03_ids_repeat", "C03_id_text"], "note": "unique up to 2^32 documents; the 32-bit counter then repeats, proved as a violation"},
 {"property": "C04", "status": "proved", "theorems": ["C04_database"], "note": ""},
 {"property": "C05", "status": "partial", "theorems": ["C05_register_success_partial", "C05_register_iff", "C05_register_failure_partial", "C05_creator_throws", "C05_wrong_type_leaves_document", "C05_empty_id_returns_other_field", "C05_register_keeps_wf", "C05_find", "C05_from_existing"], "note": "two violations: a wrong field type leaves the document behind, an empty id returns another field"},
 {"property": "C06", "status": "proved", "theorems": ["C06_first_call", "C06_idempotent", "C06_n_fold", "C06_links_injective", "C06_links_levels", "C06_levels_positive", "C06_acyclic", "C06_const", "C06_unregistered", "C06_const_missing"], "note": "for documents with non-empty ids and fewer than 2^32 ids used; C06_const: the read-only variant"},
 {"property": "C07", "status": "proved", "theorems": ["C07_assign", "C07_mismatch", "C07_scalarMul", "C07_plus", "C07_plus_mismatch", "C07_times", "C07_times_scalar"], "note": "operands on one executor (memory spaces are not modelled)"},
 {"property": "C08", "status": "partial", "theorems": ["C08_map_partial", "C08_fill_partial", "C08_setField_partial", "C08_whole", "C08_assign", "C08_violation"], "note": "the empty range {k,0} writes to the end of the field: proved as a violation"},
 {"property": "C09", "status": "proved", "theorems": ["C09_copy", "C09_copy_independent", "C09_uniform", "C09_resize", "C09_assign", "C09_assign_executor", "C09_transfer", "C09_round_trip"], "note": ""},
 {"property": "C10", "status": "proved", "theorems": ["C10_offsets", "C10_segmentedField", "C10_partition", "C10_wrapping", "C10_size_check"], "note": "as long as the total fits the index type"},
 {"property": "C100", "status": "proved", "theorems": ["C100_calls", "C100_rounds"], "note": "Time is a placeholder that ignores its arguments; end time and step are fixed. Overflow is outside the statement"},
 {"property": "C101", "status": "proved", "theorems": ["C101_transport"], "note": "floating point as in C81: relative errors at most u, no overflow or underflow; adding zero and multiplying by 1 and by -1 are exact; boundary weights are 1 (C27). The explicit Laplacian ignores gamma (C31), so conductances are kappa |S| delta"},
 {"property": "C102", "status": "proved", "theorems": ["C102_programs", "C102_copy", "C102_threads"], "note": "MPI itself by its standard. That copies compile is a defect of the class (no deleted copy constructor); the statement describes the class as it is"},
 {"property": "C11", "status": "partial", "theorems": ["C11_sum_partial", "C11_parallel", "C11_serial", "C11_sumField", "C11_violation"], "note": "for a zero starting value; otherwise serial and Kokkos executors differ: proved as a violation"},
 {"property": "C12", "status": "partial", "theorems": ["C12_partition", "C12_views", "C12_patch_partial", "C12_patchEnd_violation"], "note": "patchEnd() of the boundary patch mixin returns the start of the patch (C12_patchEnd_violation); all other accessors are proved"},
 {"property": "C13", "status": "proved", "theorems": ["C13_create1DUniformMesh", "C13_terminates", "C13_boundary_coefficients", "C13_zero_cells", "C13_singleCell", "C13_boundary_agrees", "C13_single_agrees", "C13_single_cn"], "note": "for nCells >= 1; nCells = 0 is shown to be undefined behaviour. The boundary arrays repeat the face and cell arrays on both meshes, except that createSingleCellMesh stores face areas where the boundary mesh documents the centres of the adjacent cells (C13_single_cn)."},
 {"property": "C14", "status": "partial", "theorems": ["C14_rows", "C14_offsets_partial", "C14_offsets_alias", "C14_terminates", "C14_order", "C14_chain", "C14_exact", "shuffle_realize"], "note": "Rows, columns and entry count proved for every mesh and interleaving; the 8-bit offsets address the right entries when no row has more than 256 entries, and provably alias when one has (code defect). The order inside a row is fixed up to permutations among lower and among upper entries (C14_order), and unique on all executors where every cell owns and is neighbour of at most one internal face (C14_chain). On the parallel executors exactly the patterns with that order occur (C14_exact, shuffle_realize)."},
 {"property": "C15", "status": "partial", "theorems": ["C15_lookup", "C15_sound", "C15_absent_stops", "C15_finds_partial", "C15_write", "C15_stored_entry_stops_serial", "C15_stored_entry_stops_parallel", "C15_sizes"], "note": "Exact characterisation of the lookup; stored entries are found in rows with ascending columns; both executors provably build matrices (serial: unordered faces; parallel: some schedule) where a stored entry stops the program (code defect)."},
 {"property": "C16", "status": "proved", "theorems": ["C16_spmv", "C16_ampersand", "C16_out_of_range_undefined", "C16_reset", "C16_empty"], "note": "operator& is modelled as its body intends; its structured binding does not compile when instantiated (DESIGN.md)."},
 {"property": "C17", "status": "proved", "theorems": ["C17_stencil", "C17_terminates"], "note": "All meshes, executors, interleavings and initial memory contents."},
 {"property": "C18", "status": "partial", "theorems": ["C18_div", "C18_surfaceIntegrate", "C18_div_conservative", "C18_surfaceIntegrate_conservative", "C18_cancellation", "C18_returned_violation"], "note": "Proved for the overloads that write into a caller's field (all meshes, all executors, all interleavings). Missing: the overload of GaussGreenDiv::div that returns a new field sums into uninitialised storage, so its result depends on the prior memory (C18_returned_violation)."},
 {"property": "C19", "status": "partial", "theorems": ["C19_system_partial", "C19_agree_partial", "C19_violation", "C19_vector_partial"], "note": "Agreement proved for boundary conditions without gradient part. The implicit boundary treatment drops the gradient term, so with a fixed gradient the two forms disagree (C19_violation). Parallel assembly needs the C22 restriction. Scalar and vector fields."},
 {"property": "C20", "status": "partial", "theorems": ["C20_system_partial", "C20_agree_partial", "C20_violation", "C20_vector_partial"], "note": "The implicit operator is exact for every diffusivity; the explicit one ignores the diffusivity, so agreement holds for diffusivity 1 only (C20_violation). Parallel assembly needs the C22 restriction. Scalar and vector fields."},
 {"property": "C21", "status": "proved", "theorems": ["C21_symmetric", "C21_rowSum", "C21_signs", "C21_dissipation"], "note": "Serial executor, or parallel with the C22 restriction (no cell with two boundary faces), which is part of the hypotheses. Symmetry needs a uniform scaling."},
 {"property": "C22", "status": "partial", "theorems": ["C22_div_partial", "C22_laplacian_partial", "C22_ddt_source", "C22_race", "C22_laplacian_every", "C22_div_every", "C22_rows", "C22_definite", "C22_singular", "C22_laplacian_bits", "C22_div_bits", "C22_symmetric_bits"], "note": "Unrestricted for ddt and source terms. Divergence and Laplacian: only when no two boundary faces share a cell; otherwise updates are lost (C22_race).  On every mesh and schedule (C22_laplacian_every, C22_div_every): off-diagonals are those of the serial executor, and at a cell some \u2013 never all \u2013 boundary contributions may be missing from diagonal and right hand side; rows of cells with at most one boundary face are unaffected (C22_rows); symmetry and semidefiniteness survive, definiteness if no cell mixes boundary kinds (C22_definite), otherwise the matrix can be singular (C22_singular). Off-diagonals bit by bit in any arithmetic: C22_*_bits."},
 {"property": "C23", "status": "partial", "theorems": ["C23_implicit", "C23_equilibrium", "C23_explicit_partial", "C23_explicit_violation"], "note": "Implicit term proved on all executors. The explicit term ignores the coefficient and multiplies by the volume."},
 {"property": "C24", "status": "proved", "theorems": ["C24_implicit", "C24_agree"], "note": "All executors."},
 {"property": "C25", "status": "partial", "theorems": ["C25_grad", "C25_constant", "C25_linear", "C25_into_partial", "C25_into_violation"], "note": "The overload that returns a gradient is proved equal to the Gauss formula. grad(phi, gradPhi) adds to whatever gradPhi holds: C25_into_partial states what it does, C25_into_violation shows the claimed formula fails for a non-zero target."},
 {"property": "C26", "status": "proved", "theorems": ["C26_linear", "C26_upwind", "C26_scheme", "C26_boundary", "C26_constants", "C26_bounded", "C26_direction"], "note": "For every mesh, field, flux, weights and executor."},
 {"property": "C27", "status": "proved", "theorems": ["C27_geometry", "C27_orthogonal", "C27_linear", "C27_interpolation"], "note": "Square root is any function with the square-root property on non-negative numbers (met by Real.sqrt); exact field arithmetic."},
 {"property": "C28", "status": "proved", "theorems": ["C28_conditions", "C28_patches", "C28_create", "C28_mixed", "C28_surface", "C28_surface_all", "C28_extrapolatedBCs", "C28_calculatedBCs", "C28_surface_calculated", "C28_surface_extrapolated", "C28_surface_create"], "note": "Every list of conditions, volume and surface, every executor and schedule; idempotence included (volume); the conditions made by createCalculatedBCs and createExtrapolatedBCs. Holds for any arithmetic (no laws used), except C28_mixed."},
 {"property": "C29", "status": "proved", "theorems": ["C29_courant", "C29_scaling", "C29_empty", "C29_reduce_range"], "note": "Meshes with at least one cell and positive volumes; C29_empty shows that without cells the executors disagree."},
 {"property": "C30", "status": "proved", "theorems": ["C30_pointwise", "C30_two_fields_stop", "C30_toField"], "note": "All expressions, sizes and executors."},
 {"property": "C31", "status": "partial", "theorems": ["C31_compose", "C31_explicit_partial", "C31_implicit", "C31_two_fields_stop", "C31_ddt_violation", "C31_term_div", "C31_term_laplacian", "C31_term_source", "C31_term_surfaceIntegrate", "C31_term_div_implicit", "C31_term_laplacian_implicit", "C31_term_source_implicit", "C31_term_ddt_implicit"], "note": "Proved for every composition tree (operators as heap objects with clone semantics) and every operator proportional to its coefficient; all concrete operators qualify except the explicit ddt, which ignores its coefficient (C31_ddt_violation)."},
 {"property": "C32", "status": "partial", "theorems": ["C32_system", "C32_equations_partial", "C32_nothing", "C32_violation", "C32_every", "C32_equations_every", "C32_local", "C32_chain", "C32_defect", "C32_exact"], "note": "Proved for the serial executor, for every executor on chains of cells (C14_chain), (and for any executor when the rebuilt pattern is the one the operators use). False on the parallel executors: solve builds a fresh sparsity pattern whose row order can differ from the cached one the operators assemble with (C32_violation). What is solved on every executor is characterised exactly (C32_every): the coefficients, right-hand sides and row sums of the equations as written, with the neighbours of each cell exchanged among the entries of its row (Spec/Shuffle.lean); on chains of cells the exchange is the identity (C32_chain). Every exchange of neighbours does occur on some schedule (C32_exact)."},
 {"property": "C33", "status": "partial", "theorems": ["C33_system", "C33_equations_partial", "C33_ddt", "C33_violation", "C33_every", "C33_possible", "C33_exact"], "note": "Proved for expressions whose spatial terms are implicit; explicit terms are evaluated and dropped (C33_violation). Parallel executors: chains of cells only, as C32. On every executor and schedule the same holds up to the exchange of neighbours within a row (C33_every), and the right system is always among the possible outcomes (C33_possible). Every exchange does occur on some schedule (C33_exact)."},
 {"property": "C34", "status": "partial", "theorems": ["C34_steps_partial", "C34_solve", "C34_violation"], "note": "n-step theorem for every expression, executor and step sequence; the coefficient of ddt is ignored by the code (C34_violation)."},
 {"property": "C35", "status": "proved", "theorems": ["C35_setReference"], "note": "Holds for the code as meant; the template as written does not compile when instantiated (deleted Field::operator[])."},
 {"property": "C36", "status": "proved", "theorems": ["C36_create", "C36_unknown", "C36_entries", "C36_base"], "note": ""},
 {"property": "C37", "status": "partial", "theorems": ["C37_range_partial", "C37_violation", "C37_violation_exists"], "note": "Range proved for every name and every hash function. Distinctness is false for every hash function (pigeonhole)."},
 {"property": "C38", "status": "proved", "theorems": ["C38_slices", "C38_unsized_undefined"], "note": "Any number of ranks, size tables, type switches; release build; no size_t wrap-around. A default-constructed, never sized buffer is undefined behaviour."},
 {"property": "C39", "status": "partial", "theorems": ["C39_safe_partial", "C39_values_partial", "C39_isComplete_partial", "C39_terminates_partial", "C39_result_partial", "C39_positions_partial", "C39_independent_partial", "C39_violation_two_open", "C39_violation_closed", "C39_no_spill_partial"], "note": "Any number of ranks, maps, exchanges one after the other, any interleaving of ranks and MPI (with and without buffering): safe, deadlock-free, terminating, values as specified. Several exchanges open at once is false in general: the second start reallocates the buffer vector and dangles the first exchange's pointer (C39_violation_two_open); as long as the vector does not grow, exchanges open at the same time do not disturb each other (C39_independent_partial)."},
 {"property": "C40", "status": "partial", "theorems": ["C40_abort", "C40_record_partial", "C40_violation_empty", "C40_violation_kernel"], "note": "Aborting views: proved. Recording views: proved for non-empty views used directly; refuted on empty views and in kernels (by-value capture)."},
 {"property": "C41", "status": "proved", "theorems": ["C41_once", "C41_create", "C41_own_mesh_partial", "C41_copy_violation", "C41_foreign"], "note": "All histories. Additionally: without mesh copies the object belongs to the mesh; a copied mesh shares objects that refer to the original."},
 {"property": "C42", "status": "partial", "theorems": ["C42_bounded_partial", "C42_violation"], "note": "n forwardEuler steps of dsl::solve on ddt+div with upwind stay within any bounds that hold initially, for Co<=1 and divergence-free flux. Missing: outflow boundaries must have zero gradient; with a fixed value there the claim is false of the code (C42_violation)."},
 {"property": "C43", "status": "proved", "theorems": ["C43_conservation"], "note": "any scheme, boundary conditions, number of steps and time steps"},
 {"property": "C44", "status": "proved", "theorems": ["C44_div", "C44_surfaceIntegrate", "C44_laplacian", "C44_source", "C44_not_built", "C44_twice"], "note": "Explicit operators add coefficient x value per cell to the source."},
 {"property": "C45", "status": "partial", "theorems": ["C45_steady_partial", "C45_steady_named_partial", "C45_violation_ignored", "C45_violation"], "note": "Proved for steady expressions; refuted for transient ones (solve passes fvSchemes as the solution dictionary)."},
 {"property": "C46", "status": "proved", "theorems": ["C46_assemble", "C46_again"], "note": ""},
 {"property": "C47", "status": "partial", "theorems": ["C47_violation", "C47_stops", "C47_stops_at_once"], "note": "Refuted: solve of an assembled expression never returns; C47_stops gives the actual behaviour."},
 {"property": "C48", "status": "proved", "theorems": ["C48_div", "C48_div_unknown", "C48_laplacian", "C48_laplacian_unknown", "C48_build", "C48_build_safe", "C48_rebuild", "C48_solve", "C48_explicit_div", "C48_input_consumed", "C48_direct_interpolation", "C48_direct_faceGrad", "C48_direct_div", "C48_direct_laplacian", "C48_unbuilt"], "note": "Schemes registered in the repository, read by build or from a dictionary given at construction. C48_input_consumed records that a token list passed as an Input object (not through build or solve) is consumed by creating a scheme from it. C48_unbuilt: an operator without scheme stops the program."},
 {"property": "C49", "status": "partial", "theorems": ["C49_upwind_partial", "C49_always_upwind", "C49_violation"], "note": "Holds for upwind (parallel: no two boundary faces in one cell). For linear the assembled matrix is the upwind one (C49_violation)."},
 {"property": "C50", "status": "partial", "theorems": ["C50_linear_partial", "C50_violation", "C50_boundary_violation"], "note": "Holds for linear; upwind's weight function does nothing. The boundary field of the reported weights is the never-written storage of the geometry scheme (C50_boundary_violation)."},
 {"property": "C51", "status": "partial", "theorems": ["C51_safe", "C51_lost_blocks_empty", "C51_no_leak_partial", "C51_leak_violation", "C51_views", "C51_view_dangles", "C51_undefined"], "note": "Memory safety, exclusive ownership and view validity are proved for every history. The no-leak clause is false of the code as written: resizing a non-empty field to zero makes a zero-size block, and resizing it again forgets that block (C51_leak_violation); every history without a shrink to zero frees everything (C51_no_leak_partial), and only zero-size blocks are ever lost (C51_lost_blocks_empty)."},
 {"property": "C52", "status": "partial", "theorems": ["C52_matrix_partial", "C52_violation", "C52_system", "C52_boundary_partial", "C52_boundary_violation", "C52_boundary_new", "C52_system_built", "C52_matrix_stops", "C52_system_stops"], "note": "Contents are always kept. CSRMatrix::copyToExecutor copies to the host whatever executor is asked for, and a boundary-field copy reports the executor of the original: both proved as violations."},
 {"property": "C53", "status": "partial", "theorems": ["C53_det", "C53_preserves", "C53_violation"], "note": "Exact for all indices below 2^31 on every executor and schedule; unsigned indices above that become negative (C53_violation)."},
 {"property": "C54", "status": "proved", "theorems": ["C54_field", "C54_value"], "note": "Elements are compared with a lawful !=; the overload taking a View does not compile (deleted rvalue view()) and is not modelled."},
 {"property": "C55", "status": "proved", "theorems": ["C55_succeeds", "C55_values", "C55_value_unique"], "note": "Ginkgo's pnode is modelled by its documented constructors. 64-bit integers and booleans are unsupported by the code and throw."},
 {"property": "C56", "status": "partial", "theorems": ["C56_steps_partial", "C56_solve", "C56_methods", "C56_kept", "C56_agree_partial", "C56_violation", "C56_violation_example"], "note": "Agrees with forwardEuler for boundary conditions that do not follow the cells; fails for the others (C56_violation): the integrator does not correct boundary values. A kept integrator ignores later expressions and fields (C56_kept). SUNDIALS ARKode itself is modelled from its documentation."},
 {"property": "C57", "status": "partial", "theorems": ["C57_transposed", "C57_symmetric_partial", "C57_solves_transposed", "C57_proper", "C57_laplacian_partial", "C57_violation", "C57_div_violation", "C57_div_violation_example", "C57_violation_example", "C57_empty_row_violation", "C57_no_rows_undefined"], "note": "False of the code: PETSc receives the transpose (proved for every system without empty rows); true for symmetric systems, in particular diffusion. PETSc's COO interface is modelled from its manual."},
 {"property": "C58", "status": "partial", "theorems": ["C58_find_partial", "C58_sortedKeys", "C58_iteration_order", "C58_violation", "C58_not_creation_order"], "note": "find: proved for histories that leave the entry 'id' alone; C58_violation shows that changing it makes find return an id doc() rejects. sortedKeys: proved for every history."},
 {"property": "C59", "status": "partial", "theorems": ["C59_operations", "C59_space", "C59_inner", "C59_mag", "C59_alias_violation", "C59_alias_partial"], "note": "Exact arithmetic over ordered fields. v *= s fails when s refers to a component of v other than the last (C59_alias_violation); C59_alias_partial gives the outcomes."},
 {"property": "C60", "status": "partial", "theorems": ["C60_bounded_partial", "C60_violation", "convDiff_step", "convDiff_steps", "C60_bounded_every"], "note": "Serial executor, or any executor on lines of cells; boundary conditions fixedGradient 0 or fixedValue. Existence and uniqueness of the step included (M-matrix). Fails with extrapolated outlets (C60_violation). Parallel executors: C22, C32. The bounds survive on every executor and schedule when no two boundary faces share a cell (C60_bounded_every)."},
 {"property": "C61", "status": "partial", "theorems": ["C61_conservation_partial", "C61_closed_partial", "convDiff_returns", "C61_violation", "convDiff_exact"], "note": "Serial executor, or any executor on lines of cells; every flux, diffusivity and boundary data. Fails on the parallel executors on other meshes: a closed box of three cells whose total changes (C61_violation)."},
 {"property": "C62", "status": "partial", "theorems": ["C62_energy_partial", "sum_mul_netOutflow", "dissipates", "C62_violation"], "note": "Serial executor, or any executor on lines of cells. Fails on the parallel executors on other meshes (C62_violation)."},
 {"property": "C63", "status": "proved", "theorems": ["C63_steady", "C63_reached_needed"], "note": "The statement as given, exact arithmetic; the reachability condition is shown necessary. Outside it: other boundary conditions, and the parallel executors on meshes other than lines of cells (their sparsity patterns may not match, C32)."},
 {"property": "C64", "status": "proved", "theorems": ["C64_gradient", "C64_conduction"], "note": "Exact arithmetic; end-to-end from create1DUniformMesh to the solver's result. Conduction on every executor from two cells on."},
 {"property": "C65", "status": "partial", "theorems": ["C65_given", "C65_solves", "C65_valid", "C65_solving", "C65_conduction", "C65_short_violation", "C65_executor"], "note": "Ginkgo itself (array copy semantics, apply) is taken from its documentation. Missing: a field shorter than the system is not rejected but written out of bounds (C65_short_violation)."},
 {"property": "C66", "status": "partial", "theorems": ["C66_spared_partial", "C66_first", "C66_forward", "C66_rk_kept", "C66_backward_violation", "C66_backward_dangling", "C66_rk_violation", "C66_rk_dangling", "C66_backward_example"], "note": "Holds for forward Euler, for Runge-Kutta after its first step and for all integrators if the two dictionaries are left alone; backward Euler and a new Runge-Kutta integrator use the present content of the dictionaries (violations proved)."},
 {"property": "C67", "status": "partial", "theorems": ["C67_copy_partial", "C67_created", "C67_move", "C67_solver_kept", "C67_solver_move", "C67_rk_violation", "C67_rk_created", "C67_solver_violation"], "note": "Fails for Runge-Kutta integrators (copying is undefined behaviour) and for all linear solvers (the copy is null); both proved."},
 {"property": "C68", "status": "partial", "theorems": ["C68_sizes", "C68_span", "C68_write", "C68_history", "C68_parallel", "C68_construct", "C68_parts", "C68_overflow_violation", "C68_parts_violation", "C68_decreasing_violation", "C68_sized_violation"], "note": "Holds while the total number of values fits into 32 bits; lengths with a larger total, values and offsets that do not belong together, decreasing offsets, and a field constructed by size only are accepted and then read out of bounds (violations proved)."},
 {"property": "C69", "status": "proved", "theorems": ["C69_definite", "C69_solvable", "C22_definite"], "note": "Serial executor, or parallel with the C22 restriction; exact arithmetic; uniform positive scaling.  Every schedule without the restriction: C22_definite."},
 {"property": "C70", "status": "partial", "theorems": ["C70_reference", "C70_single_cell_violation"], "note": "Proved for at least two cells; in a mesh of one cell the reference has no effect and the equation stays singular (proved). setReference as written does not compile (C35); modelled with a view of rowPtrs."},
 {"property": "C71", "status": "partial", "theorems": ["C71_forward", "StepFrom.euler", "C71_rungeKutta", "C71_backward", "C71_violation", "C71_backward_terms"], "note": "The code does not have the property: the step is proved to start from the recorded old-time field for every integrator (C71_forward, C71_rungeKutta, C71_backward), so it holds exactly when the field was not changed since the last step (StepFrom.euler with C34) and a change is undone (C71_violation). backwardEuler: for every equation of implicit terms (C71_backward_terms)."},
 {"property": "C72", "status": "partial", "theorems": ["C72_div", "C72_surfaceIntegrate", "C72_laplacian", "C72_grad", "C72_courant", "C72_geometry", "C72_implicit_div_partial", "C72_implicit_laplacian_partial", "C72_implicit_ddt", "C72_implicit_source", "C72_correct", "C72_transport"], "note": "Proved in full for the explicit operators, the geometry scheme, the Courant number, boundary conditions and forwardEuler transport. The implicit divergence and Laplacian are covered on the serial executor, and on the others for meshes without two boundary faces in a cell: elsewhere assembly has a race (C22)."},
 {"property": "C73", "status": "proved", "theorems": ["C73_div", "C73_laplacian", "C73_surfaceIntegrate", "C73_source", "C73_flux_linear", "C73_flux_upwind", "C73_one", "C73_transport"], "note": "Over an arbitrary field of numbers (exact arithmetic). Linearity of the gradient is C25_linear. Time stepping shown for transport with forwardEuler."},
 {"property": "C74", "status": "proved", "theorems": ["C74_bounded", "exists_smallStep"], "note": "Exact arithmetic over ordered fields. The explicit Laplacian ignores its diffusivity (C20), so the diffusion coefficient is the factor of the term."},
 {"property": "C75", "status": "proved", "theorems": ["C75_conservation", "C75_steady"], "note": "Exact arithmetic."},
 {"property": "C76", "status": "partial", "theorems": ["C76_steady", "C76_backward_partial", "C76_forward_partial", "C76_forward_violation", "C76_backward_violation", "C76_other_field_violation"], "note": "Proved for steady equations with any mix of explicit terms and implicit terms of the solved field (serial executor, or any executor on lines of cells); backwardEuler with implicit terms only and forwardEuler with explicit terms and total ddt coefficient one. The full statement is false: forwardEuler silently ignores imp:: terms, backwardEuler drops exp:: terms, and an imp:: term of another field is assembled as one of the solved field."},
 {"property": "C77", "status": "proved", "theorems": ["C77_allReduce", "C77_stops", "C77_vector", "C77_ranks"], "note": "Real arithmetic for floating-point numbers; integers modulo their width. MPI's predefined operations and datatypes are modelled from the MPI standard; a mismatch between C++ type and MPI datatype is undefined behaviour in the model. C77_stops: reductions of char and wchar_t values, and Land/Lor/Band/Bor/Maxloc/Minloc of scalars, are accepted by the interface but end in an MPI error."},
 {"property": "C78", "status": "proved", "theorems": ["C78_explicit", "C78_implicit", "C78_boundary", "C78_faces", "C78_forward", "C78_build", "C78_scalar"], "note": "For every arithmetic (only the operations are used, so also bit for bit in floating point), except C78_scalar, which is over a field. A plain load or store of a Vector is taken as one access (the three components are not torn apart by a race). Linear solvers exist only for scalar systems in the code, so for vector systems assembly is the end of the line."},
 {"property": "C79", "status": "proved", "theorems": ["C79_geometry", "C79_run", "C79_courant", "C79_gradient", "C79_explicit", "C79_forward"], "note": "Exact arithmetic over any ordered field: floating point rounding does depend on the position. The mesh's own data (areas, volumes, boundary delta coefficients) are inputs and are moved consistently by assumption."},
 {"property": "C80", "status": "proved", "theorems": ["C80_geometry", "C80_run", "C80_courant", "C80_gradient", "C80_threshold"], "note": "Exact arithmetic. The condition in the statement is needed: C80_threshold shows that any face that is not half-way between its cells gets the weight one half in some unit of length, as ROOTVSMALL = 1e-18 is compared with a volume-like quantity. The condition is Mesh.Resolved. Fixed-value conditions store the value as reference gradient too, so reference gradients count only where the value fraction is not one. The explicit ddt and Laplacian operators, which no exp:: function creates, are not part of the statement."},
 {"property": "C81", "status": "proved", "theorems": ["C81_div", "C81_laplacian", "C81_surfaceIntegrate", "C81_source", "C81_ddt", "C81_gradient", "C81_two_runs"], "note": "Standard model of floating point arithmetic (each +, -, *, / is the exact result times 1+d, |d| <= u; sums with zero exact), which BinFloat p, defined in Spec/BinFloat as round-to-nearest with p-bit significands and unbounded exponents, is proved to satisfy. Overflow, underflow and contraction of a*b+c into fused multiply-add are outside. Geometry (weights, delta coefficients, volumes) is given data. The gradient bound is per component."},
 {"property": "C82", "status": "proved", "theorems": ["C82_serial", "C82_operators", "C82_everywhere", "C82_atomic"], "note": "The statement as given. C82_atomic: on the CPU and GPU executors the sums over faces are atomic additions in any order; in binary floating point of any precision the surface integral of one and the same data in one cell can come out as 0 and as 1, so nothing of the kind holds there (C81 bounds the difference). Geometry (weights, delta coefficients) is given data; linear solvers are assumed repeatable. Runge-Kutta comes with the modelled weights."},
 {"property": "C83", "status": "proved", "theorems": ["C83_transport"], "note": "floating point as in C81: relative errors at most u, no overflow or underflow; adding zero is exact; boundary weights are 1 (what the geometry scheme gives, C27). Zero-gradient outflow is part of the statement because C42_violation shows that boundedness fails otherwise"},
 {"property": "C84", "status": "proved", "theorems": ["C84_laplacian", "C84_div", "C84_ddt", "C84_source", "C84_empty", "C84_relative", "C84_diffusion", "C84_explicit"], "note": "floating point as in C81: relative errors at most u, no overflow or underflow. Parallel executors need meshes without cells with two boundary faces, which is part of the hypotheses because the code races there (C22)"},
 {"property": "C85", "status": "proved", "theorems": ["C14_exact", "shuffle_realize", "C32_exact", "C33_exact"], "note": "both directions: nothing else occurs, and everything described does. This is the exact extent of the defect of C32"},
 {"property": "C86", "status": "proved", "theorems": ["C60_bounded_every", "C86_steady", "C86_diffusion_needed"], "note": "exact arithmetic; the condition on diffusion is shown necessary (C86_diffusion_needed)"},
 {"property": "C87", "status": "proved", "theorems": ["C87_marching", "C87_reached_needed"], "note": "exact arithmetic; the condition that a boundary value reaches every cell is shown necessary (C87_reached_needed)"},
 {"property": "C88", "status": "proved", "theorems": ["C88_comparison"], "note": "exact arithmetic"},
 {"property": "C89", "status": "proved", "theorems": ["C89_geometry", "C89_nonOrthogonal", "binFloat_faithful", "binFloat_root"], "note": "standard rounding model without overflow and underflow; binary numbers of any precision with round-to-nearest and a rounded root are shown to meet it (binFloat_arith, binFloat_faithful, binFloat_root)"},
 {"property": "C90", "status": "proved", "theorems": ["C90_courant", "C90_limit"], "note": "standard rounding model without overflow and underflow; the mean Courant number, which is only logged, is not bounded here"},
 {"property": "C91", "status": "proved", "theorems": ["C91_implicit"], "note": "standard rounding model without overflow and underflow; the solver is any relation that leaves residuals within the tolerance when it returns"},
 {"property": "C92", "status": "proved", "theorems": ["C92_convergence", "C92_uniform_source"], "note": "real numbers, exact linear solver; the one-dimensional mesh is the only mesh family the code makes"},
 {"property": "C93", "status": "proved", "theorems": ["C93_heat"], "note": "real numbers, exact linear solver; the one-dimensional mesh is the only mesh family the code makes"},
 {"property": "C94", "status": "proved", "theorems": ["C94_transport"], "note": "real numbers, exact linear solver; the flux is the volumetric face flux, negative through the inlet face because its area vector points out"},
 {"property": "C95", "status": "proved", "theorems": ["C95_transport", "C95_heat", "C95_courant_one", "C95_limit_needed"], "note": "real numbers; the diffusivity is the coefficient of the explicit term, which ignores gamma (C20)"},
 {"property": "C96", "status": "proved", "theorems": ["C96_convergence", "C96_uniform_source"], "note": "real numbers; exact solutions of the linear system"},
 {"property": "C97", "status": "partial", "theorems": ["C97_vectors_partial", "C97_ownership", "C97_no_leak", "C97_destroy", "C97_round_trip", "C97_violation_copy", "C97_violation_dangling", "C97_violation_init", "C97_violation_unchecked", "C97_default_kind", "C97_violation_null"], "note": "proved for every program that initialises its copies before it uses them. False for copies in general: the copy constructors take the N_Vector of the other wrapper (sundials.hpp:271-272, 308-309, 343-344), so a copy writes into the original and dangles when that is destroyed or initialised again (violations proved). The SUNDIALS vector class and the context are taken by their documentation"},
 {"property": "C98", "status": "proved", "theorems": ["C98_marching", "C95_limit_needed", "C87_reached_needed"], "note": "exact arithmetic; the implicit solve on the serial executor or on lines of cells (C32), the explicit runs on every executor; upwind interpolation; the explicit Laplacian takes its diffusivity as a coefficient (C20). Both conditions are needed: beyond the step limit and without a prescribed value the runs do not converge (C95_limit_needed, C87_reached_needed)"},
 {"property": "C99", "status": "proved", "theorems": ["C99_steady", "C99_connected", "C84_explicit", "C84_div", "C84_laplacian"], "note": "the parallel executors only on lines of cells (C32); overflow and underflow are outside the statement; boundary conditions are zero gradient or a fixed value with diffusion at least as strong as outflow; whether the solver returns is not stated"}
]}
