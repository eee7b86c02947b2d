# Axioms per theorem (output of `#print axioms`)

* `Properties.C01_direct_mttkrp_exact`: propext, Classical.choice, Quot.sound
* `Properties.C02_unequal_lengths_abort`: propext, Classical.choice, Quot.sound
* `Properties.C02_succeeds_iff_uniform`: propext, Classical.choice, Quot.sound
* `Properties.C02_simple_step_abort`: propext, Classical.choice, Quot.sound
* `Properties.C02_gradient_abort`: propext, Classical.choice, Quot.sound
* `Properties.C02_als_cp_abort`: propext, Classical.choice, Quot.sound
* `Properties.C03_label_collision`: propext, Classical.choice, Quot.sound
* `Properties.C03_simple_step_abort`: propext, Classical.choice, Quot.sound
* `Properties.C03_gradient_abort`: propext, Classical.choice, Quot.sound
* `Properties.C03_als_cp_abort`: propext, Classical.choice, Quot.sound
* `Properties.C04_dt_step_exact`: propext, Classical.choice, Quot.sound
* `Properties.C04_msdt_step_exact`: propext, Classical.choice, Quot.sound
* `Properties.C04_order_two_ub`: propext, Classical.choice, Quot.sound
* `Properties.C05_dt_steps_are_sweeps`: propext, Classical.choice, Quot.sound
* `Properties.C05_dt_eq_simple`: propext, Classical.choice, Quot.sound
* `Properties.C06_msdt_cyclic`: propext, Classical.choice, Quot.sound
* `Properties.C06_msdt_sweeps`: propext, Classical.choice, Quot.sound
* `Properties.C07_dtlr_pair_is_sweep`: propext, Classical.choice, Quot.sound
* `Properties.C07_dtlr_schedule`: propext, Classical.choice, Quot.sound
* `Properties.C08_dtlr_cache_coherent`: propext, Classical.choice, Quot.sound
* `Properties.C09_msdtlr_cache_coherent`: propext, Classical.choice, Quot.sound
* `Properties.C10_update_S`: propext, Classical.choice, Quot.sound
* `Properties.C10_update_S_ignores_own_factor`: propext, Classical.choice, Quot.sound
* `Properties.C11_simple_gradient`: propext, Classical.choice, Quot.sound
* `Properties.C11_dt_gradient`: propext, Classical.choice, Quot.sound
* `Properties.C11_msdt_gradient`: propext, Classical.choice, Quot.sound
* `Properties.C11_dtlr_gradient`: propext, Classical.choice, Quot.sound
* `Properties.C11_msdtlr_gradient`: propext, Classical.choice, Quot.sound
* `Properties.C11_gradient_is_derivative`: propext, Classical.choice, Quot.sound
* `Properties.C12_cholesky_solve`: propext, Classical.choice, Quot.sound
* `Properties.C12_svd_solve`: propext, Classical.choice, Quot.sound
* `Properties.C12_cholesky_solver`: propext, Classical.choice, Quot.sound
* `Properties.C12_svd_solver`: propext, Classical.choice, Quot.sound
* `Properties.exists_kernOk`: propext, Classical.choice, Quot.sound
* `Properties.C13_update_is_global_minimiser`: propext, Classical.choice, Quot.sound
* `Properties.C13_simple_monotone`: propext, Classical.choice, Quot.sound
* `Properties.C13_dt_monotone`: propext, Classical.choice, Quot.sound
* `Properties.C13_msdt_monotone`: propext, Classical.choice, Quot.sound
* `Properties.C13_simple_monotone_cholesky`: propext, Classical.choice, Quot.sound
* `Properties.C13_dt_monotone_cholesky`: propext, Classical.choice, Quot.sound
* `Properties.C13_msdt_monotone_cholesky`: propext, Classical.choice, Quot.sound
* `Properties.C14_rankR_residual`: propext, Classical.choice, Quot.sound
* `Properties.C14_rankR_optimal`: propext, Classical.choice, Quot.sound
* `Properties.C14_rankR_random`: propext, Classical.choice, Quot.sound
* `Properties.C14_rankR_optimal_svd`: propext, Classical.choice, Quot.sound
* `Properties.C14_rankR_random_descends`: propext, Classical.choice, Quot.sound
* `Properties.C14_lrSolver_best`: propext, Classical.choice, Quot.sound
* `Properties.C14_lrSolver_descends`: propext, Classical.choice, Quot.sound
* `Properties.C14_rankR_svd_variant_optimal`: propext, Classical.choice, Quot.sound
* `Properties.C14_rankR_svd_variant_exact`: propext, Classical.choice, Quot.sound
* `Properties.C14_rankR_variants_agree`: propext, Classical.choice, Quot.sound
* `Properties.C14_rankR_svd_variant_random_descends`: propext, Classical.choice, Quot.sound
* `Properties.C15_build_V`: propext, Classical.choice, Quot.sound
* `Properties.C15_build_V_limit`: propext, Classical.choice, Quot.sound
* `Properties.C15_build_V_vec`: propext, Classical.choice, Quot.sound
* `Properties.C16_residual`: propext, Classical.choice, Quot.sound
* `Properties.C16_gradnorm`: propext, Classical.choice, Quot.sound
* `Properties.C17_normalize`: propext, Classical.choice, Quot.sound
* `Properties.C18_als_terminates`: propext, Classical.choice, Quot.sound
* `Properties.C18_fuel_irrelevant`: propext, Classical.choice, Quot.sound
* `Properties.C19_result_simple_dt`: propext, Classical.choice, Quot.sound
* `Properties.C19_result_msdt`: propext, Classical.choice, Quot.sound
* `Properties.C20_stop_reason`: propext, Classical.choice, Quot.sound
* `Properties.C21_resprint_zero`: propext, Classical.choice, Quot.sound
* `Properties.C22_records`: propext, Classical.choice, Quot.sound
* `Properties.C22_same_domain`: propext, Classical.choice, Quot.sound
* `Properties.C22_leaves`: propext, Classical.choice, Quot.sound
* `Properties.C22_children`: propext, Classical.choice, Quot.sound
* `Properties.C23_node_exact`: propext, Classical.choice, Quot.sound
* `Properties.C23_mttkrp_exact`: propext, Classical.choice, Quot.sound
* `Properties.C25_sweep_exact`: propext, Classical.choice, Quot.sound
* `Properties.C24_order5_ub`: propext, Classical.choice, Quot.sound
* `Properties.C24_order3_diverges`: propext, Classical.choice, Quot.sound
* `Properties.C24_order3_no_sweep`: propext, Classical.choice, Quot.sound
* `Properties.C35_order5_sweep`: propext, Classical.choice, Quot.sound
* `Properties.C35_order3_no_sweep`: propext, Classical.choice, Quot.sound
* `Properties.C25_sweep_is_als`: propext, Classical.choice, Quot.sound
* `Properties.C25_sweep_normalized`: propext, Classical.choice, Quot.sound
* `Properties.C26_operators_exact`: propext, Classical.choice, Quot.sound
* `Properties.C26_build_any_map`: propext, Classical.choice, Quot.sound
* `Properties.C26_overflow`: propext, Classical.choice, Quot.sound
* `Properties.C27_first_order`: propext, Classical.choice, Quot.sound
* `Properties.C27_exact`: propext, Classical.choice, Quot.sound
* `Properties.C27_error_order`: propext, Classical.choice, Quot.sound
* `Properties.C27_update`: propext, Classical.choice, Quot.sound
* `Properties.C28_svd_solve_mod`: propext, Classical.choice, Quot.sound
* `Properties.C29_updates`: propext, Classical.choice, Quot.sound
* `Properties.C29_normalize_breaks`: propext, Classical.choice, Quot.sound
* `Properties.C29_concrete`: propext, Classical.choice, Quot.sound
* `Properties.C30_terminates`: propext, Classical.choice, Quot.sound
* `Properties.C30_exit`: propext, Classical.choice, Quot.sound
* `Properties.C30_bench`: propext, Classical.choice, Quot.sound
* `Properties.C31_livelock`: propext, Classical.choice, Quot.sound
* `Properties.C31_livelock_later`: propext, Classical.choice, Quot.sound
* `Properties.C32_partial_update`: propext, Classical.choice, Quot.sound
* `Properties.C32_overrun`: propext, Classical.choice, Quot.sound
* `Properties.C32_sortable`: propext, Classical.choice, Quot.sound
* `Properties.C32_nan_unsortable`: propext, Classical.choice, Quot.sound
* `Properties.exists_sort`: propext, Classical.choice, Quot.sound
* `Properties.C33_ttmc`: propext, Classical.choice, Quot.sound
* `Properties.C33_ttmc_all`: propext, Classical.choice, Quot.sound
* `Properties.C33_order_one`: propext, Classical.choice, Quot.sound
* `Properties.C33_label_collision`: propext, Classical.choice, Quot.sound
* `Properties.C34_core_is_ttmc`: propext, Classical.choice, Quot.sound
* `Properties.C34_core_exact`: propext, Classical.choice, Quot.sound
* `Properties.C34_hosvd`: propext, Classical.choice, Quot.sound
* `Properties.C35_tree_exact`: propext, Classical.choice, Quot.sound
* `Properties.C35_sweep_exact`: propext, Classical.choice, Quot.sound
* `Properties.C35_tree_eq_direct`: propext, Classical.choice, Quot.sound
* `Properties.C35_order5_abort`: propext, Classical.choice, Quot.sound
* `Properties.C35_order3_diverges`: propext, Classical.choice, Quot.sound
* `Properties.C36_operators_exact`: propext, Classical.choice, Quot.sound
* `Properties.C36_overflow`: propext, Classical.choice, Quot.sound
* `Properties.C36_first_order`: propext, Classical.choice, Quot.sound
* `Properties.C36_exact`: propext, Classical.choice, Quot.sound
* `Properties.C36_error_order`: propext, Classical.choice, Quot.sound
* `Properties.C36_update`: propext, Classical.choice, Quot.sound
* `Properties.C36_sweep`: propext, Classical.choice, Quot.sound
* `Properties.C36_phase`: propext, Classical.choice, Quot.sound
* `Properties.C37_sign`: propext, Classical.choice, Quot.sound
* `Properties.C37_sign_iff`: propext, Classical.choice, Quot.sound
* `Properties.C37_dead_branch`: propext, Classical.choice, Quot.sound
* `Properties.C37_harmless`: propext, Classical.choice, Quot.sound
* `Properties.C37_sweep`: propext, Classical.choice, Quot.sound
* `Properties.C38_update_optimal`: propext, Classical.choice, Quot.sound
* `Properties.C38_direct_monotone`: propext, Classical.choice, Quot.sound
* `Properties.C38_dt_monotone`: propext, Classical.choice, Quot.sound
* `Properties.C38_dtsub_monotone`: propext, Classical.choice, Quot.sound
* `Properties.C38_error_identity`: propext, Classical.choice, Quot.sound
* `Properties.C38_check`: propext, Classical.choice, Quot.sound
* `Properties.C39_identity`: propext, Classical.choice, Quot.sound
* `Properties.C39_laplacian`: propext, Classical.choice, Quot.sound
* `Properties.C39_random_laplacian`: propext, Classical.choice, Quot.sound
* `Properties.C39_order_two`: propext, Classical.choice, Quot.sound
* `Properties.C39_odd_order`: propext, Classical.choice, Quot.sound
* `Properties.C40_fold`: propext, Classical.choice, Quot.sound
* `Properties.C40_fold_pairs`: propext, Classical.choice, Quot.sound
* `Properties.C40_roundtrip`: propext, Classical.choice, Quot.sound
* `Properties.C40_too_small`: propext, Classical.choice, Quot.sound
* `Properties.C41_unit`: propext, Classical.choice, Quot.sound
* `Properties.C41_latin`: propext, Classical.choice, Quot.sound
* `Properties.C42_gram_schmidt`: propext, Classical.choice, Quot.sound
* `Properties.C42_gram_schmidt_real`: propext, Classical.choice, Quot.sound
* `Properties.C43_window`: propext, Classical.choice, Quot.sound
* `Properties.C43_empty_window`: propext, Classical.choice, Quot.sound
* `Properties.C43_unreachable_window`: propext, Classical.choice, Quot.sound
* `Properties.C43_returns`: propext, Classical.choice, Quot.sound
* `Properties.C43_zero_vectors_pass`: propext, Classical.choice, Quot.sound
* `Properties.C44_lookup`: propext, Classical.choice, Quot.sound
* `Properties.C44_lookup_none`: propext, Quot.sound
* `Properties.C44_values`: propext, Classical.choice, Quot.sound
* `Properties.C44_ranges`: propext, Classical.choice, Quot.sound
* `Properties.C44_defined`: propext, Classical.choice, Quot.sound
* `Properties.C44_atoi`: propext, Classical.choice, Quot.sound
* `Properties.C44_garbage`: propext, Classical.choice, Quot.sound
* `Properties.C44_nan`: propext, Classical.choice, Quot.sound
* `Properties.C44_resprint_zero`: propext, Classical.choice, Quot.sound
* `Properties.C44_test_values`: propext, Classical.choice, Quot.sound
* `Properties.C44_test_rank`: propext, Classical.choice, Quot.sound
* `Properties.C45_one_init`: propext, Classical.choice, Quot.sound
* `Properties.C45_no_init`: propext, Quot.sound
* `Properties.C45_second_init`: propext, Classical.choice, Quot.sound
* `Properties.C45_iff`: propext, Classical.choice, Quot.sound
* `Properties.C45_copy`: propext, Classical.choice, Quot.sound
* `Properties.C45_both_free`: propext, Classical.choice, Quot.sound
* `Properties.C46_agree`: propext, Classical.choice, Quot.sound
* `Properties.C46_disagree`: propext, Classical.choice, Quot.sound
* `Properties.C46_deadlock_first`: propext, Classical.choice, Quot.sound
* `Properties.C47_vec2str`: propext, Quot.sound
* `Properties.C47_injective`: propext, Quot.sound
* `Properties.C47_collision`: propext, Quot.sound
* `Properties.C47_complement`: propext, Classical.choice, Quot.sound
* `Properties.C47_literal`: propext, Classical.choice, Quot.sound
* `Properties.C47_unsorted`: propext, Quot.sound
* `Properties.C48_cp`: propext, Classical.choice, Quot.sound
* `Properties.C48_cp_sweep`: propext, Classical.choice, Quot.sound
* `Properties.C48_cp_dt`: propext, Classical.choice, Quot.sound
* `Properties.C48_cp_dt_zero_gradient`: propext, Classical.choice, Quot.sound
* `Properties.C48_tucker`: propext, Classical.choice, Quot.sound
* `Properties.C48_tucker_dt`: propext, Classical.choice, Quot.sound
* `Properties.C49_log_rows`: propext, Classical.choice, Quot.sound
* `Properties.C50_cyclic_exact`: propext, Classical.choice, Quot.sound
* `Properties.C50_first_sweep`: propext, Classical.choice, Quot.sound
* `Properties.C50_sweep_hist`: propext, Classical.choice, Quot.sound
* `Properties.C50_deficit`: propext, Classical.choice, Quot.sound
* `Properties.C50_concrete`: propext, Classical.choice, Quot.sound
* `Properties.C51_consistent`: propext, Classical.choice, Quot.sound
* `Properties.C51_default_aborts`: propext, Classical.choice, Quot.sound
* `Properties.C51_no_arguments`: propext, Classical.choice, Quot.sound
* `Properties.C51_datasets`: propext, Classical.choice, Quot.sound
* `Properties.C51_kinds`: propext, Quot.sound
* `Properties.C52_noise`: propext, Classical.choice, Quot.sound
* `Properties.C53_tucker_dt`: propext, Classical.choice, Quot.sound
* `Properties.C53_tucker`: propext, Classical.choice, Quot.sound
* `Properties.C53_tucker_violated`: propext, Classical.choice, Quot.sound
* `Properties.C54_exit`: propext, Classical.choice, Quot.sound
* `Properties.C54_terminates`: propext, Classical.choice, Quot.sound
* `Properties.C54_always`: propext, Classical.choice, Quot.sound
* `Properties.C54_livelock_later`: propext, Classical.choice, Quot.sound
* `Properties.C54_livelock`: propext, Classical.choice, Quot.sound
* `Properties.C54_tol_schedule`: propext, Classical.choice, Quot.sound
* `Properties.C54_tol_floor`: propext, Classical.choice, Quot.sound
* `Properties.C55_cp`: propext, Classical.choice, Quot.sound
* `Properties.C55_tucker`: propext, Classical.choice, Quot.sound
* `Properties.C56_terminates`: propext, Classical.choice, Quot.sound
* `Properties.C56_exit`: propext, Classical.choice, Quot.sound
* `Properties.C56_livelock`: propext, Classical.choice, Quot.sound
* `Properties.C56_guard`: propext, Classical.choice, Quot.sound
* `Properties.C56_sort_undefined`: propext, Classical.choice, Quot.sound
* `Properties.C57_tensor`: propext, Classical.choice, Quot.sound
* `Properties.C57_cp`: propext, Classical.choice, Quot.sound
* `Properties.C57_tucker`: propext, Classical.choice, Quot.sound
* `Properties.C57_resprint_zero`: propext, Classical.choice, Quot.sound
* `Properties.C57_no_work`: propext, Classical.choice, Quot.sound
* `Properties.C57_orders_3_5`: propext, Classical.choice, Quot.sound
* `Properties.C57_poisson_odd`: propext, Classical.choice, Quot.sound
* `Properties.C57_poisson2_odd`: propext, Classical.choice, Quot.sound
* `Properties.C57_bad_tensor`: propext, Classical.choice, Quot.sound
* `Properties.C57_orders_3_5_pp`: propext, Classical.choice, Quot.sound
* `Properties.C57_tucker_order3`: propext, Classical.choice, Quot.sound
* `Properties.C57_tucker_order5`: propext, Classical.choice, Quot.sound
* `Properties.C57_dim_limit`: propext, Classical.choice, Quot.sound
* `Properties.C58_dtlr_monotone`: propext, Classical.choice, Quot.sound
* `Properties.C58_lr_update_optimal`: propext, Classical.choice, Quot.sound
* `Properties.C59_run`: propext, Classical.choice, Quot.sound
* `Properties.C59_residual_monotone`: propext, Classical.choice, Quot.sound
* `Properties.C59_poisson_aborts`: propext, Classical.choice, Quot.sound
* `Properties.C59_datasets_abort`: propext, Classical.choice, Quot.sound
* `Properties.C59_no_decomposition`: propext, Classical.choice, Quot.sound
* `Properties.C59_ignored_options`: propext, Classical.choice, Quot.sound
* `Properties.C59_bad_tensor`: propext, Classical.choice, Quot.sound
* `Properties.C59_dim_limit`: propext, Classical.choice, Quot.sound
* `Properties.C59_order_two`: propext, Classical.choice, Quot.sound
* `Properties.C59_run_direct`: propext, Classical.choice, Quot.sound
* `Properties.C59_direct_limit`: propext, Classical.choice, Quot.sound
* `Properties.C60_khatri_rao_product`: propext, Classical.choice, Quot.sound
* `Properties.C60_abort`: propext, Classical.choice, Quot.sound
* `Properties.C60_entries_lost`: propext, Classical.choice, Quot.sound
* `Properties.C61_apply_rankR_update`: propext, Classical.choice, Quot.sound
* `Properties.C61_coherent_iff`: propext, Classical.choice, Quot.sound
* `Properties.C62_sweeps`: propext, Classical.choice, Quot.sound
* `Properties.C62_descends`: propext, Classical.choice, Quot.sound
* `Properties.C62_converges`: propext, Classical.choice, Quot.sound
* `Properties.C63_options`: propext, Classical.choice, Quot.sound
* `Properties.C63_cp`: propext, Classical.choice, Quot.sound
* `Properties.C63_pp_repetition`: propext, Classical.choice, Quot.sound
* `Properties.C63_pp_idle`: propext, Classical.choice, Quot.sound
* `Properties.C63_repeats`: propext, Classical.choice, Quot.sound
* `Properties.C63_vacuous`: propext, Classical.choice, Quot.sound
* `Properties.C63_tucker`: propext, Classical.choice, Quot.sound
* `Properties.C63_tucker_pp_repetition`: propext, Classical.choice, Quot.sound
* `Properties.C63_tucker_pp_idle`: propext, Classical.choice, Quot.sound
* `Properties.C63_tucker_uneven`: propext, Classical.choice, Quot.sound
* `Properties.C63_tucker_default_ub`: propext, Classical.choice, Quot.sound
* `Properties.C63_unknown_tensor`: propext, Classical.choice, Quot.sound
* `Properties.C64_deterministic`: propext, Classical.choice, Quot.sound
* `Properties.C64_pp_agree`: propext, Classical.choice, Quot.sound
* `Properties.C64_pp_mismatch`: propext, Classical.choice, Quot.sound
* `Properties.C64_pp_all_late`: propext, Classical.choice, Quot.sound
* `Properties.C64_ll_agree`: propext, Classical.choice, Quot.sound
* `Properties.C64_ll_mismatch`: propext, Classical.choice, Quot.sound
* `Properties.C64_cp_pp`: propext, Classical.choice, Quot.sound
* `Properties.C64_bench_rank0`: propext, Classical.choice, Quot.sound
* `Properties.C65_descent`: propext, Classical.choice, Quot.sound
* `Properties.C65_als_converges`: propext, Classical.choice, Quot.sound
* `Properties.C65_limit_points`: propext, Classical.choice, Quot.sound
* `Properties.C65_normalize_objective`: propext, Classical.choice, Quot.sound
* `Properties.C65_legacy_converges`: propext, Classical.choice, Quot.sound
* `Properties.C66_tucker`: propext, Classical.choice, Quot.sound
* `Properties.C66_tucker_dt`: propext, Classical.choice, Quot.sound
* `Properties.C66_tucker_limit`: propext, Classical.choice, Quot.sound
* `Properties.C66_tucker_dt_limit`: propext, Classical.choice, Quot.sound
* `Properties.C67_loop`: propext, Classical.choice, Quot.sound
* `Properties.C67_loop_nan_tol`: propext, Classical.choice, Quot.sound
* `Properties.C67_loop_poisoned`: propext, Classical.choice, Quot.sound
* `Properties.C67_als`: propext, Classical.choice, Quot.sound
* `Properties.C67_als_poisoned`: propext, Classical.choice, Quot.sound
* `Properties.C67_pp`: propext, Classical.choice, Quot.sound
* `Properties.C67_pp_nothing`: propext, Classical.choice, Quot.sound
* `Properties.C67_pp_poisoned`: propext, Classical.choice, Quot.sound
* `Properties.C67_tucker_pp_poisoned`: propext, Classical.choice, Quot.sound
* `Properties.C67_pp_poisoned_dt`: propext, Classical.choice, Quot.sound
* `Properties.C67_run_no_limit`: propext, Classical.choice, Quot.sound
* `Properties.C67_test_no_limit`: propext, Classical.choice, Quot.sound
* `Properties.C67_bench_no_limit`: propext, Classical.choice, Quot.sound
* `Properties.C67_run_nan_tol`: propext, Classical.choice, Quot.sound
* `Properties.C67_run_to_end`: propext, Classical.choice, Quot.sound
* `Properties.C67_test_nan_tol`: propext, Classical.choice, Quot.sound
* `Properties.C67_test_nan_tol_pp`: propext, Classical.choice, Quot.sound
* `Properties.C68_dt`: propext, Classical.choice, Quot.sound
* `Properties.C68_msdt`: propext, Classical.choice, Quot.sound
* `Properties.C68_simple`: propext, Classical.choice, Quot.sound
* `Properties.C68_legacy`: propext, Classical.choice, Quot.sound
* `Properties.C68_build_V`: propext, Classical.choice, Quot.sound
* `Properties.C68_residual`: propext, Classical.choice, Quot.sound
* `Properties.C68_bound_small`: propext, Classical.choice, Quot.sound
* `Properties.C68_zero_bounds`: propext, Classical.choice, Quot.sound
* `Properties.C69_hosvd`: propext, Classical.choice, Quot.sound
* `Properties.C69_hosvd_exact`: propext, Classical.choice, Quot.sound
* `Properties.C69_hosvd_full`: propext, Classical.choice, Quot.sound
* `Properties.C69_tucker`: propext, Classical.choice, Quot.sound
* `Properties.C69_tucker_dt`: propext, Classical.choice, Quot.sound
* `Properties.C69_test`: propext, Classical.choice, Quot.sound
* `Properties.C70_cp`: propext, Classical.choice, Quot.sound
* `Properties.C70_cp_update`: propext, Classical.choice, Quot.sound
* `Properties.C70_tucker`: propext, Classical.choice, Quot.sound
* `Properties.C70_tucker_driver`: propext, Classical.choice, Quot.sound
* `Properties.C70_second_order`: propext, Classical.choice, Quot.sound
* `Properties.C71_resume`: propext, Classical.choice, Quot.sound
* `Properties.C71_converged`: propext, Classical.choice, Quot.sound
* `Properties.C71_idempotent`: propext, Classical.choice, Quot.sound
* `Properties.C71_split`: propext, Classical.choice, Quot.sound
* `Properties.C71_split_msdt`: propext, Classical.choice, Quot.sound
* `Properties.C71_split_msdt_differs`: propext, Classical.choice, Quot.sound
* `Properties.C71_cp_dt_idempotent`: propext, Classical.choice, Quot.sound
* `Properties.C71_cp_dt_split`: propext, Classical.choice, Quot.sound
* `Properties.C72_stationary_kept`: propext, Classical.choice, Quot.sound
* `Properties.C72_stationary_kept_lr`: propext, Classical.choice, Quot.sound
* `Properties.C72_fixed_is_stationary`: propext, Classical.choice, Quot.sound
* `Properties.C72_fixed_is_stationary_dtlr`: propext, Classical.choice, Quot.sound
* `Properties.C72_exact_kept`: propext, Classical.choice, Quot.sound
* `Properties.C72_exact_kept_legacy`: propext, Classical.choice, Quot.sound
* `Properties.C73_equivariant`: propext, Classical.choice, Quot.sound
* `Properties.C73_columns`: propext, Classical.choice, Quot.sound
* `Properties.C73_basis`: propext, Classical.choice, Quot.sound
* `Properties.C73_scaling`: propext, Classical.choice, Quot.sound
* `Properties.C74_terms_meaning`: propext, Classical.choice, Quot.sound
* `Properties.C74_same_results`: propext, Classical.choice, Quot.sound
* `Properties.C74_same_results_pp`: propext, Classical.choice, Quot.sound
* `Properties.C74_plain`: propext, Classical.choice, Quot.sound
* `Properties.C74_dt`: propext, Classical.choice, Quot.sound
* `Properties.C74_memory`: propext, Classical.choice, Quot.sound
* `Properties.C74_memory_msdt`: propext, Classical.choice, Quot.sound
* `Properties.C74_msdt`: propext, Classical.choice, Quot.sound
* `Properties.C74_pp_setup`: propext, Classical.choice, Quot.sound
* `Properties.C74_pp_sweep`: propext, Classical.choice, Quot.sound
* `Properties.C75_dtlr`: propext, Classical.choice, Quot.sound
* `Properties.C75_dtlr_als`: propext, Classical.choice, Quot.sound
* `Properties.C75_msdtlr`: propext, Classical.choice, Quot.sound
* `Properties.C75_msdtlr_als`: propext, Classical.choice, Quot.sound
* `Properties.C76_direct`: propext, Classical.choice, Quot.sound
* `Properties.C76_dt`: propext, Classical.choice, Quot.sound
* `Properties.C76_dtsub`: propext, Classical.choice, Quot.sound
* `Properties.C76_hosvd`: propext, Classical.choice, Quot.sound
* `Properties.C76_tucker`: propext, Classical.choice, Quot.sound
* `Properties.C76_tucker_dt`: propext, Classical.choice, Quot.sound
* `Properties.C77_direct`: propext, Classical.choice, Quot.sound
* `Properties.C77_dt`: propext, Classical.choice, Quot.sound
* `Properties.C77_hosvd`: propext, Classical.choice, Quot.sound
* `Properties.C77_tucker`: propext, Classical.choice, Quot.sound
* `Properties.C77_tucker_dt`: propext, Classical.choice, Quot.sound
* `Properties.C78_life`: propext, Classical.choice, Quot.sound
* `Properties.C78_same_factors`: propext, Classical.choice, Quot.sound
* `Properties.C78_checks`: propext, Classical.choice, Quot.sound
* `Properties.C79_session`: propext, Classical.choice, Quot.sound
* `Properties.C79_test_cpd`: propext, Classical.choice, Quot.sound
* `Properties.C80_ttmc`: propext, Classical.choice, Quot.sound
* `Properties.C80_core`: propext, Classical.choice, Quot.sound
* `Properties.C80_hosvd`: propext, Classical.choice, Quot.sound
* `Properties.C80_sweep`: propext, Classical.choice, Quot.sound
* `Properties.C80_sweep_dt`: propext, Classical.choice, Quot.sound
* `Properties.C80_check`: propext, Classical.choice, Quot.sound
* `Properties.C80_pp`: propext, Classical.choice, Quot.sound
* `Properties.C80_objective`: propext, Classical.choice, Quot.sound
* `Properties.C80_objective_dt`: propext, Classical.choice, Quot.sound
* `Properties.C80_loss_zero`: propext, Classical.choice, Quot.sound
* `Properties.C81_dt`: propext, Classical.choice, Quot.sound
* `Properties.C81_simple`: propext, Classical.choice, Quot.sound
* `Properties.C81_msdt`: propext, Classical.choice, Quot.sound
* `Properties.C81_precision`: propext, Classical.choice, Quot.sound
* `Properties.C81_loss_zero`: propext, Classical.choice, Quot.sound
* `Properties.C81_solver`: propext, Classical.choice, Quot.sound
* `Properties.C82_operators`: propext, Classical.choice, Quot.sound
* `Properties.C82_sweep`: propext, Classical.choice, Quot.sound
* `Properties.C82_first_sweep`: propext, Classical.choice, Quot.sound
* `Properties.C83_cp_update`: propext, Classical.choice, Quot.sound
* `Properties.C83_cp_sweep`: propext, Classical.choice, Quot.sound
* `Properties.C83_tucker_update`: propext, Classical.choice, Quot.sound
* `Properties.C83_tucker_sweep`: propext, Classical.choice, Quot.sound
* `Properties.C83_tucker_phase`: propext, Classical.choice, Quot.sound
* `Properties.C84_hosvd`: propext, Classical.choice, Quot.sound
* `Properties.C84_tucker`: propext, Classical.choice, Quot.sound
* `Properties.C84_tucker_dt`: propext, Classical.choice, Quot.sound
* `Properties.C84_loss_zero`: propext, Classical.choice, Quot.sound
* `Properties.C85_gradnorm`: propext, Classical.choice, Quot.sound
* `Properties.C85_als`: propext, Classical.choice, Quot.sound
* `Properties.C85_precision`: propext, Classical.choice, Quot.sound
* `Properties.C85_any_tolerance`: propext, Classical.choice, Quot.sound
* `Properties.C86_als`: propext, Classical.choice, Quot.sound
* `Properties.C86_als_other_ranks`: propext, Classical.choice, Quot.sound
* `Properties.C86_als_bench`: propext, Classical.choice, Quot.sound
* `Properties.C86_als_twice`: propext, Classical.choice, Quot.sound
* `Properties.C86_cp_dt`: propext, Classical.choice, Quot.sound
* `Properties.C86_tucker_dt`: propext, Classical.choice, Quot.sound
* `Properties.C86_tucker_dt_other_ranks`: propext, Classical.choice, Quot.sound
* `Properties.C86_shared_file`: propext, Classical.choice, Quot.sound
* `Properties.C86_pp`: propext, Classical.choice, Quot.sound
* `Properties.C86_pp_other_ranks`: propext, Classical.choice, Quot.sound
* `Properties.C86_pp_bench`: propext, Classical.choice, Quot.sound
* `Properties.C86_bench_cp`: propext, Classical.choice, Quot.sound
* `Properties.C86_bench_tucker`: propext, Classical.choice, Quot.sound
* `Properties.C87_same_results`: propext, Classical.choice, Quot.sound
* `Properties.C87_cp_dt`: propext, Classical.choice, Quot.sound
* `Properties.C87_cp_dt_equal`: propext, Classical.choice, Quot.sound
* `Properties.C87_cp_dt_memory`: propext, Classical.choice, Quot.sound
* `Properties.C87_cp_dt_memory_equal`: propext, Classical.choice, Quot.sound
* `Properties.C87_tucker_plain`: propext, Classical.choice, Quot.sound
* `Properties.C87_tucker_dt`: propext, Classical.choice, Quot.sound
* `Properties.C87_tucker_dt_equal`: propext, Classical.choice, Quot.sound
* `Properties.C87_tucker_dt_sweeps`: propext, Classical.choice, Quot.sound
* `Properties.C87_tucker_dt_memory`: propext, Classical.choice, Quot.sound
* `Properties.C88_exact`: propext, Classical.choice, Quot.sound
* `Properties.C88_msdt`: propext, Classical.choice, Quot.sound
* `Properties.C88_order3`: propext, Classical.choice, Quot.sound
* `Properties.C89_cp_dt`: propext, Classical.choice, Quot.sound
* `Properties.C89_cp_pp`: propext, Classical.choice, Quot.sound
* `Properties.C89_cp_pp_alike`: propext, Classical.choice, Quot.sound
* `Properties.C89_cp_part`: propext, Classical.choice, Quot.sound
* `Properties.C89_pp_columns`: propext, Classical.choice, Quot.sound
* `Properties.C89_pp_basis`: propext, Classical.choice, Quot.sound
* `Properties.C90_interchangeable`: propext, Classical.choice, Quot.sound
* `Properties.C90_legacy_cp`: propext, Classical.choice, Quot.sound
* `Properties.C90_tucker`: propext, Classical.choice, Quot.sound
* `Properties.C90_normalize`: propext, Classical.choice, Quot.sound
* `Properties.C91_off`: propext, Classical.choice, Quot.sound
* `Properties.C91_part_off`: propext, Classical.choice, Quot.sound
* `Properties.C91_until`: propext, Classical.choice, Quot.sound
* `Properties.C91_part_until`: propext, Classical.choice, Quot.sound
* `Properties.C91_tucker_off`: propext, Classical.choice, Quot.sound
* `Properties.C91_tucker_until`: propext, Classical.choice, Quot.sound
* `Properties.C91_test`: propext, Classical.choice, Quot.sound
* `Properties.C91_tucker_test`: propext, Classical.choice, Quot.sound
