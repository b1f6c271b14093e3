# Axioms of the claimed theorems

Generated by `tools/axioms.py` from `#print axioms`.

## (none)

* C102 `C102_threads`
* C40 `C40_violation_empty`
* C52 `C52_boundary_violation`
* C52 `C52_matrix_stops`
* C67 `C67_solver_move`

## Classical.choice, Quot.sound, propext

* C01 `C01_dictionary`
* C03 `C03_ids_unique_partial`
* C04 `C04_database`
* C05 `C05_register_keeps_wf`
* C05 `C05_from_existing`
* C06 `C06_first_call`
* C06 `C06_idempotent`
* C06 `C06_n_fold`
* C06 `C06_links_injective`
* C06 `C06_links_levels`
* C06 `C06_levels_positive`
* C06 `C06_acyclic`
* C06 `C06_const`
* C06 `C06_const_missing`
* C07 `C07_assign`
* C07 `C07_scalarMul`
* C07 `C07_plus`
* C07 `C07_times`
* C07 `C07_times_scalar`
* C08 `C08_map_partial`
* C08 `C08_fill_partial`
* C08 `C08_setField_partial`
* C08 `C08_whole`
* C08 `C08_assign`
* C08 `C08_violation`
* C09 `C09_uniform`
* C09 `C09_resize`
* C09 `C09_assign`
* C10 `C10_offsets`
* C10 `C10_segmentedField`
* C10 `C10_partition`
* C10 `C10_wrapping`
* C100 `C100_calls`
* C100 `C100_rounds`
* C101 `C101_transport`
* C11 `C11_sum_partial`
* C11 `C11_parallel`
* C11 `C11_serial`
* C11 `C11_sumField`
* C11 `C11_violation`
* C12 `C12_partition`
* C12 `C12_views`
* C12 `C12_patch_partial`
* C13 `C13_create1DUniformMesh`
* C13 `C13_terminates`
* C13 `C13_boundary_coefficients`
* C13 `C13_zero_cells`
* C13 `C13_singleCell`
* C13 `C13_boundary_agrees`
* C13 `C13_single_agrees`
* C13 `C13_single_cn`
* C14 `C14_rows`
* C14 `C14_offsets_partial`
* C14 `C14_offsets_alias`
* C14 `C14_terminates`
* C14 `C14_order`
* C14 `C14_chain`
* C14 `C14_exact`
* C14 `shuffle_realize`
* C15 `C15_finds_partial`
* C15 `C15_stored_entry_stops_serial`
* C15 `C15_stored_entry_stops_parallel`
* C15 `C15_sizes`
* C16 `C16_spmv`
* C16 `C16_ampersand`
* C16 `C16_out_of_range_undefined`
* C16 `C16_reset`
* C16 `C16_empty`
* C17 `C17_stencil`
* C17 `C17_terminates`
* C18 `C18_div`
* C18 `C18_surfaceIntegrate`
* C18 `C18_div_conservative`
* C18 `C18_surfaceIntegrate_conservative`
* C18 `C18_cancellation`
* C18 `C18_returned_violation`
* C19 `C19_system_partial`
* C19 `C19_agree_partial`
* C19 `C19_violation`
* C19 `C19_vector_partial`
* C20 `C20_system_partial`
* C20 `C20_agree_partial`
* C20 `C20_violation`
* C20 `C20_vector_partial`
* C21 `C21_symmetric`
* C21 `C21_rowSum`
* C21 `C21_signs`
* C21 `C21_dissipation`
* C22 `C22_div_partial`
* C22 `C22_laplacian_partial`
* C22 `C22_ddt_source`
* C22 `C22_race`
* C22 `C22_laplacian_every`
* C22 `C22_div_every`
* C22 `C22_rows`
* C22 `C22_definite`
* C22 `C22_singular`
* C22 `C22_laplacian_bits`
* C22 `C22_div_bits`
* C22 `C22_symmetric_bits`
* C23 `C23_implicit`
* C23 `C23_equilibrium`
* C23 `C23_explicit_partial`
* C23 `C23_explicit_violation`
* C24 `C24_implicit`
* C24 `C24_agree`
* C25 `C25_grad`
* C25 `C25_constant`
* C25 `C25_linear`
* C25 `C25_into_partial`
* C25 `C25_into_violation`
* C26 `C26_linear`
* C26 `C26_upwind`
* C26 `C26_scheme`
* C26 `C26_boundary`
* C26 `C26_bounded`
* C27 `C27_geometry`
* C27 `C27_orthogonal`
* C27 `C27_linear`
* C27 `C27_interpolation`
* C28 `C28_conditions`
* C28 `C28_patches`
* C28 `C28_create`
* C28 `C28_mixed`
* C28 `C28_surface`
* C28 `C28_surface_all`
* C28 `C28_extrapolatedBCs`
* C28 `C28_calculatedBCs`
* C28 `C28_surface_calculated`
* C28 `C28_surface_extrapolated`
* C28 `C28_surface_create`
* C29 `C29_courant`
* C29 `C29_scaling`
* C30 `C30_pointwise`
* C30 `C30_two_fields_stop`
* C30 `C30_toField`
* C31 `C31_compose`
* C31 `C31_explicit_partial`
* C31 `C31_implicit`
* C31 `C31_two_fields_stop`
* C31 `C31_ddt_violation`
* C31 `C31_term_div`
* C31 `C31_term_laplacian`
* C31 `C31_term_source`
* C31 `C31_term_surfaceIntegrate`
* C31 `C31_term_div_implicit`
* C31 `C31_term_laplacian_implicit`
* C31 `C31_term_source_implicit`
* C31 `C31_term_ddt_implicit`
* C32 `C32_system`
* C32 `C32_equations_partial`
* C32 `C32_violation`
* C32 `C32_every`
* C32 `C32_equations_every`
* C32 `C32_local`
* C32 `C32_chain`
* C32 `C32_defect`
* C32 `C32_exact`
* C33 `C33_system`
* C33 `C33_equations_partial`
* C33 `C33_ddt`
* C33 `C33_violation`
* C33 `C33_every`
* C33 `C33_possible`
* C33 `C33_exact`
* C34 `C34_steps_partial`
* C34 `C34_violation`
* C35 `C35_setReference`
* C36 `C36_create`
* C36 `C36_unknown`
* C36 `C36_entries`
* C37 `C37_range_partial`
* C37 `C37_violation`
* C37 `C37_violation_exists`
* C38 `C38_slices`
* C39 `C39_safe_partial`
* C39 `C39_values_partial`
* C39 `C39_isComplete_partial`
* C39 `C39_terminates_partial`
* C39 `C39_result_partial`
* C39 `C39_positions_partial`
* C39 `C39_independent_partial`
* C39 `C39_violation_two_open`
* C39 `C39_no_spill_partial`
* C40 `C40_record_partial`
* C41 `C41_once`
* C41 `C41_own_mesh_partial`
* C42 `C42_bounded_partial`
* C42 `C42_violation`
* C43 `C43_conservation`
* C44 `C44_div`
* C44 `C44_surfaceIntegrate`
* C44 `C44_laplacian`
* C44 `C44_source`
* C46 `C46_assemble`
* C46 `C46_again`
* C48 `C48_div`
* C48 `C48_laplacian`
* C48 `C48_laplacian_unknown`
* C48 `C48_build`
* C48 `C48_build_safe`
* C48 `C48_rebuild`
* C48 `C48_explicit_div`
* C48 `C48_direct_interpolation`
* C48 `C48_direct_div`
* C48 `C48_direct_laplacian`
* C49 `C49_upwind_partial`
* C49 `C49_always_upwind`
* C49 `C49_violation`
* C50 `C50_linear_partial`
* C50 `C50_violation`
* C50 `C50_boundary_violation`
* C52 `C52_boundary_new`
* C53 `C53_det`
* C53 `C53_preserves`
* C53 `C53_violation`
* C54 `C54_field`
* C54 `C54_value`
* C55 `C55_succeeds`
* C55 `C55_values`
* C56 `C56_steps_partial`
* C56 `C56_kept`
* C56 `C56_agree_partial`
* C56 `C56_violation_example`
* C57 `C57_transposed`
* C57 `C57_symmetric_partial`
* C57 `C57_solves_transposed`
* C57 `C57_proper`
* C57 `C57_laplacian_partial`
* C57 `C57_violation`
* C57 `C57_div_violation`
* C57 `C57_div_violation_example`
* C57 `C57_violation_example`
* C57 `C57_empty_row_violation`
* C58 `C58_find_partial`
* C58 `C58_sortedKeys`
* C58 `C58_iteration_order`
* C58 `C58_violation`
* C58 `C58_not_creation_order`
* C59 `C59_inner`
* C59 `C59_mag`
* C59 `C59_alias_violation`
* C60 `C60_bounded_partial`
* C60 `C60_violation`
* C60 `convDiff_step`
* C60 `convDiff_steps`
* C60 `C60_bounded_every`
* C61 `C61_conservation_partial`
* C61 `C61_closed_partial`
* C61 `convDiff_returns`
* C61 `C61_violation`
* C61 `convDiff_exact`
* C62 `C62_energy_partial`
* C62 `sum_mul_netOutflow`
* C62 `dissipates`
* C62 `C62_violation`
* C63 `C63_steady`
* C63 `C63_reached_needed`
* C64 `C64_gradient`
* C64 `C64_conduction`
* C65 `C65_given`
* C65 `C65_solves`
* C65 `C65_valid`
* C65 `C65_solving`
* C65 `C65_conduction`
* C65 `C65_short_violation`
* C66 `C66_backward_example`
* C68 `C68_sizes`
* C68 `C68_span`
* C68 `C68_write`
* C68 `C68_history`
* C68 `C68_parallel`
* C68 `C68_construct`
* C68 `C68_overflow_violation`
* C68 `C68_parts_violation`
* C69 `C69_definite`
* C69 `C69_solvable`
* C69 `C22_definite`
* C70 `C70_reference`
* C70 `C70_single_cell_violation`
* C71 `C71_forward`
* C71 `C71_rungeKutta`
* C71 `C71_backward`
* C71 `C71_violation`
* C71 `C71_backward_terms`
* C72 `C72_div`
* C72 `C72_surfaceIntegrate`
* C72 `C72_laplacian`
* C72 `C72_grad`
* C72 `C72_courant`
* C72 `C72_geometry`
* C72 `C72_implicit_div_partial`
* C72 `C72_implicit_laplacian_partial`
* C72 `C72_implicit_ddt`
* C72 `C72_implicit_source`
* C72 `C72_correct`
* C72 `C72_transport`
* C73 `C73_div`
* C73 `C73_laplacian`
* C73 `C73_surfaceIntegrate`
* C73 `C73_source`
* C73 `C73_flux_linear`
* C73 `C73_flux_upwind`
* C73 `C73_one`
* C73 `C73_transport`
* C74 `C74_bounded`
* C74 `exists_smallStep`
* C75 `C75_conservation`
* C75 `C75_steady`
* C76 `C76_steady`
* C76 `C76_backward_partial`
* C76 `C76_forward_partial`
* C76 `C76_forward_violation`
* C76 `C76_backward_violation`
* C76 `C76_other_field_violation`
* C77 `C77_allReduce`
* C77 `C77_vector`
* C77 `C77_ranks`
* C78 `C78_explicit`
* C78 `C78_implicit`
* C78 `C78_boundary`
* C78 `C78_faces`
* C78 `C78_forward`
* C78 `C78_build`
* C79 `C79_geometry`
* C79 `C79_run`
* C79 `C79_gradient`
* C79 `C79_explicit`
* C79 `C79_forward`
* C80 `C80_geometry`
* C80 `C80_run`
* C80 `C80_courant`
* C80 `C80_gradient`
* C80 `C80_threshold`
* C81 `C81_div`
* C81 `C81_laplacian`
* C81 `C81_surfaceIntegrate`
* C81 `C81_source`
* C81 `C81_ddt`
* C81 `C81_gradient`
* C81 `C81_two_runs`
* C82 `C82_serial`
* C82 `C82_operators`
* C82 `C82_everywhere`
* C82 `C82_atomic`
* C83 `C83_transport`
* C84 `C84_laplacian`
* C84 `C84_div`
* C84 `C84_ddt`
* C84 `C84_source`
* C84 `C84_empty`
* C84 `C84_relative`
* C84 `C84_diffusion`
* C84 `C84_explicit`
* C85 `C14_exact`
* C85 `shuffle_realize`
* C85 `C32_exact`
* C85 `C33_exact`
* C86 `C60_bounded_every`
* C86 `C86_steady`
* C86 `C86_diffusion_needed`
* C87 `C87_marching`
* C87 `C87_reached_needed`
* C88 `C88_comparison`
* C89 `C89_geometry`
* C89 `C89_nonOrthogonal`
* C89 `binFloat_faithful`
* C89 `binFloat_root`
* C90 `C90_courant`
* C90 `C90_limit`
* C91 `C91_implicit`
* C92 `C92_convergence`
* C92 `C92_uniform_source`
* C93 `C93_heat`
* C94 `C94_transport`
* C95 `C95_transport`
* C95 `C95_heat`
* C95 `C95_courant_one`
* C95 `C95_limit_needed`
* C96 `C96_convergence`
* C96 `C96_uniform_source`
* C97 `C97_round_trip`
* C97 `C97_violation_copy`
* C97 `C97_violation_dangling`
* C97 `C97_violation_init`
* C97 `C97_violation_unchecked`
* C97 `C97_default_kind`
* C98 `C98_marching`
* C98 `C95_limit_needed`
* C98 `C87_reached_needed`
* C99 `C99_steady`
* C99 `C99_connected`
* C99 `C84_explicit`
* C99 `C84_div`
* C99 `C84_laplacian`

## Quot.sound, propext

* C01 `C01_nested_read`
* C01 `C01_nested_frame`
* C02 `C02_failed_read_consumes_nothing`
* C02 `C02_next_in_order_partial`
* C02 `C02_popFront_is_queue_partial`
* C02 `C02_size`
* C03 `C03_id_text`
* C05 `C05_register_success_partial`
* C05 `C05_register_iff`
* C05 `C05_register_failure_partial`
* C05 `C05_creator_throws`
* C05 `C05_wrong_type_leaves_document`
* C05 `C05_empty_id_returns_other_field`
* C05 `C05_find`
* C07 `C07_plus_mismatch`
* C09 `C09_copy`
* C09 `C09_copy_independent`
* C09 `C09_transfer`
* C09 `C09_round_trip`
* C10 `C10_size_check`
* C102 `C102_programs`
* C102 `C102_copy`
* C12 `C12_patchEnd_violation`
* C15 `C15_lookup`
* C15 `C15_sound`
* C15 `C15_absent_stops`
* C15 `C15_write`
* C26 `C26_constants`
* C26 `C26_direction`
* C29 `C29_empty`
* C29 `C29_reduce_range`
* C32 `C32_nothing`
* C34 `C34_solve`
* C36 `C36_base`
* C38 `C38_unsized_undefined`
* C39 `C39_violation_closed`
* C40 `C40_abort`
* C41 `C41_create`
* C41 `C41_foreign`
* C44 `C44_not_built`
* C44 `C44_twice`
* C45 `C45_steady_partial`
* C45 `C45_steady_named_partial`
* C45 `C45_violation_ignored`
* C45 `C45_violation`
* C47 `C47_violation`
* C47 `C47_stops`
* C47 `C47_stops_at_once`
* C48 `C48_div_unknown`
* C48 `C48_solve`
* C48 `C48_input_consumed`
* C48 `C48_direct_faceGrad`
* C48 `C48_unbuilt`
* C51 `C51_safe`
* C51 `C51_lost_blocks_empty`
* C51 `C51_no_leak_partial`
* C51 `C51_views`
* C51 `C51_undefined`
* C52 `C52_system_built`
* C52 `C52_system_stops`
* C56 `C56_solve`
* C56 `C56_methods`
* C56 `C56_violation`
* C57 `C57_no_rows_undefined`
* C59 `C59_operations`
* C59 `C59_space`
* C59 `C59_alias_partial`
* C66 `C66_spared_partial`
* C66 `C66_first`
* C66 `C66_forward`
* C66 `C66_rk_kept`
* C66 `C66_backward_violation`
* C66 `C66_backward_dangling`
* C66 `C66_rk_violation`
* C66 `C66_rk_dangling`
* C67 `C67_copy_partial`
* C67 `C67_created`
* C67 `C67_move`
* C67 `C67_rk_violation`
* C67 `C67_rk_created`
* C67 `C67_solver_violation`
* C68 `C68_decreasing_violation`
* C71 `StepFrom.euler`
* C77 `C77_stops`
* C78 `C78_scalar`
* C79 `C79_courant`
* C97 `C97_vectors_partial`
* C97 `C97_ownership`
* C97 `C97_no_leak`
* C97 `C97_destroy`
* C97 `C97_violation_null`

## propext

* C02 `C02_mixed_reads_skip`
* C03 `C03_ids_repeat`
* C06 `C06_unregistered`
* C07 `C07_mismatch`
* C09 `C09_assign_executor`
* C40 `C40_violation_kernel`
* C41 `C41_copy_violation`
* C51 `C51_leak_violation`
* C51 `C51_view_dangles`
* C52 `C52_matrix_partial`
* C52 `C52_violation`
* C52 `C52_system`
* C52 `C52_boundary_partial`
* C55 `C55_value_unique`
* C65 `C65_executor`
* C67 `C67_solver_kept`
* C68 `C68_parts`
* C68 `C68_sized_violation`
