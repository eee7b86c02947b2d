c('C01','proved',['C01_direct_mttkrp_exact'],'All orders 3..10, uniform mode length; includes that no CTF shape error occurs.')
c('C02','proved',['C02_unequal_lengths_abort','C02_succeeds_iff_uniform','C02_simple_step_abort','C02_gradient_abort','C02_als_cp_abort'],'The code violates the property; proved: it aborts on every shape whose contracted modes differ, and succeeds iff uniform.')
c('C03','proved',['C03_label_collision','C03_simple_step_abort','C03_gradient_abort','C03_als_cp_abort'],'The code violates the property; proved negation for every order >= 11.')
c('C04','proved',['C04_dt_step_exact','C04_msdt_step_exact','C04_order_two_ub'],'Orders 3..31, any shape, any number of earlier steps, any solver.')
c('C05','proved',['C05_dt_steps_are_sweeps','C05_dt_eq_simple'],'')
c('C06','proved',['C06_msdt_cyclic','C06_msdt_sweeps'],'')
c('C07','proved',['C07_dtlr_pair_is_sweep','C07_dtlr_schedule'],'')
c('C08','proved',['C08_dtlr_cache_coherent'],'')
c('C09','proved',['C09_msdtlr_cache_coherent'],'')
c('C10','proved',['C10_update_S','C10_update_S_ignores_own_factor'],'')
c('C11','proved',['C11_simple_gradient','C11_dt_gradient','C11_msdt_gradient','C11_dtlr_gradient','C11_msdtlr_gradient','C11_gradient_is_derivative'],'')
c('C13','proved',['C13_update_is_global_minimiser','C13_simple_monotone','C13_dt_monotone','C13_msdt_monotone','C13_simple_monotone_cholesky','C13_dt_monotone_cholesky','C13_msdt_monotone_cholesky'],'')
c('C12','proved',['C12_cholesky_solve','C12_svd_solve','C12_cholesky_solver','C12_svd_solver','exists_kernOk'],'Relative to the contracts of CTF cholesky/solve_tri/svd, which are shown satisfiable over the reals.')
c('C14','proved',['C14_rankR_residual','C14_rankR_optimal','C14_rankR_random','C14_rankR_optimal_svd','C14_rankR_random_descends','C14_lrSolver_best','C14_lrSolver_descends','C14_rankR_svd_variant_optimal','C14_rankR_svd_variant_exact','C14_rankR_variants_agree','C14_rankR_svd_variant_random_descends'],'both variants, Cholesky and SVD of gamma')
c('C28','proved',['C28_svd_solve_mod'],'')
c('C15','proved',['C15_build_V','C15_build_V_limit','C15_build_V_vec'],'Orders 2..18; from order 20 on undefined behaviour is proved. Order 19 depends on CTF accepting NUL as a label and is not claimed.')
c('C16','proved',['C16_residual','C16_gradnorm'],'')
c('C17','proved',['C17_normalize'],'')
c('C18','proved',['C18_als_terminates','C18_fuel_irrelevant'],'All five optimizers, instantiated with the modelled step functions; no hypothesis that steps succeed.')
c('C19','proved',['C19_result_simple_dt','C19_result_msdt'],'Holds for Simple/DT/DTLR. The code violates it for MSDT/MSDTLR: proved exactly when, for an exact counter of sweeps; C88 is about the double.')
c('C20','proved',['C20_stop_reason'],'')
c('C21','proved',['C21_resprint_zero'],'The code violates the property; proved that every entered loop is undefined behaviour.')
c('C49','proved',['C49_log_rows'],'')
c('C22','proved',['C22_records','C22_same_domain','C22_leaves','C22_children'],'Orders 2..159 (from 160 on the letter of mode 159 is NUL).')
c('C23','proved',['C23_node_exact','C23_mttkrp_exact','C25_sweep_exact'],'Orders 4, 6..31; arbitrary mode lengths. Caches arising inside a sweep: C25_sweep_exact with an arbitrary solver.')
c('C24','proved',['C24_order5_ub','C24_order3_diverges','C24_order3_no_sweep','C35_order5_sweep','C35_order3_no_sweep'],'The property is violated by the code; the theorems prove the violation for all inputs of order 5 and 3.')
c('C25','proved',['C25_sweep_exact','C25_sweep_is_als','C25_sweep_normalized'],'Includes the matrices F and the final Normalize.')
c('C26','proved',['C26_operators_exact','C26_build_any_map','C26_overflow'],'Orders 3..9; from order 10 on the 8-byte key buffer overflows, proved as undefined behaviour.')
c('C27','proved',['C27_first_order','C27_exact','C27_error_order','C27_update'],'')
c('C29','proved',['C29_updates','C29_normalize_breaks','C29_concrete'],'Holds through the factor updates; Normalize in the sweep breaks it, proved with a concrete run.')
c('C30','proved',['C30_terminates','C30_exit','C30_bench'],'Orders 4, 6..9 (those for which both phases are defined). Concrete driver alsCP_PP with the modelled computations.')
c('C31','proved',['C31_livelock','C31_livelock_later'],'The code violates the property; the livelock is proved.')

c('C32','proved',['C32_partial_update','C32_overrun','C32_sortable','C32_nan_unsortable','exists_sort'],'std::sort enters by its contract (permutation, ordered, precondition strict weak order); p <= 1 needed')
c('C50','proved',['C50_cyclic_exact','C50_first_sweep','C50_sweep_hist','C50_deficit','C50_concrete'],'violation shown by a concrete run: second sweep starts with mode 1 and drops the contribution of mode 0')
c('C33','proved',['C33_ttmc','C33_ttmc_all','C33_order_one','C33_label_collision'],'orders 2..10 (1..10 with i=-1); outside this range the violation is proved')
c('C34','proved',['C34_core_is_ttmc','C34_core_exact','C34_hosvd'],'orders 1..10 for equality with TTMc, 1..18 for the exact core')
c('C35','proved',['C35_tree_exact','C35_sweep_exact','C35_tree_eq_direct','C35_order5_abort','C35_order5_sweep','C35_order3_diverges','C35_order3_no_sweep'],'orders 4, 6..31 (sweep 4, 6..18); orders 3 and 5 proved to fail')
c('C37','proved',['C37_sign','C37_sign_iff','C37_dead_branch','C37_harmless','C37_sweep'],'')
c('C38','proved',['C38_update_optimal','C38_direct_monotone','C38_dt_monotone','C38_dtsub_monotone','C38_error_identity','C38_check'],'SVD enters by its contract: leading left singular vectors of the given PSD matrix (contract shown satisfiable: exists_svdLeading)')
c('C36','proved',['C36_operators_exact','C36_overflow','C36_first_order','C36_exact','C36_error_order','C36_update','C36_sweep','C36_phase'],'orders 3..9; overflow proved elsewhere')
c('C39','proved',['C39_identity','C39_laplacian','C39_random_laplacian','C39_order_two','C39_odd_order'],'d up to 79 (letters stay non-NUL); for d = 1 the failure is proved, for odd orders the wrong tensor is identified')
c('C40','proved',['C40_fold','C40_fold_pairs','C40_roundtrip','C40_too_small'],'every distribution of the data over the ranks; read_local/write enter by their contract')
c('C41','proved',['C41_unit','C41_latin'],'every number of ranks')
c('C42','proved',['C42_gram_schmidt','C42_gram_schmidt_real'],'')
c('C43','proved',['C43_window','C43_empty_window','C43_unreachable_window','C43_returns','C43_zero_vectors_pass'],'the random stream is arbitrary; zero vectors (collinearity NaN) are the only exception and proved to pass')

c('C44','proved',['C44_lookup','C44_lookup_none','C44_values','C44_ranges','C44_defined','C44_atoi','C44_garbage','C44_nan','C44_resprint_zero','C44_test_values','C44_test_rank'],'NaN passes every clamp and -resprint 0 is accepted (division by zero follows): both violations are proved')
c('C51','proved',['C51_consistent','C51_default_aborts','C51_no_arguments','C51_datasets','C51_kinds'],'violation proved for the default tensor and the data sets')
c('C52','proved',['C52_noise'],'')
c('C45','proved',['C45_one_init','C45_no_init','C45_second_init','C45_iff','C45_copy','C45_both_free'],'the code violates the property for a second Init and for copies; leak of old_W in the MSDT low-rank optimizer included')
c('C46','proved',['C46_agree','C46_disagree','C46_deadlock_first'],'exact criterion; the violation (deadlock when the rank-local clocks disagree) is proved')
c('C47','proved',['C47_vec2str','C47_injective','C47_collision','C47_complement','C47_literal','C47_unsorted'],'')
c('C48','proved',['C48_cp','C48_cp_sweep','C48_cp_dt','C48_cp_dt_zero_gradient','C48_tucker','C48_tucker_dt'],'alsCP for equal mode lengths (C02), order 2..10; alsCP_DT orders 4, 6..18; Tucker 2..10 and 4, 6..10; every clock, solver and SVD')
c('C53','proved',['C53_tucker_dt','C53_tucker','C53_tucker_violated'],'violation by alsTucker returning false proved for every correct SVD')
c('C54','proved',['C54_exit','C54_terminates','C54_always','C54_livelock_later','C54_livelock','C54_tol_schedule','C54_tol_floor'],'violation (no return after the time limit) proved')
c('C55','proved',['C55_cp','C55_tucker'],'the driver equals an instrumented driver in which a PP sweep outside the condition aborts')
c('C56','proved',['C56_terminates','C56_exit','C56_livelock','C56_guard','C56_sort_undefined'],'both violations proved; termination is up to the undefined sort, whose reachability is shown by C56_sort_undefined')
c('C59','proved',['C59_run','C59_residual_monotone','C59_poisson_aborts','C59_datasets_abort','C59_no_decomposition','C59_ignored_options','C59_bad_tensor','C59_dim_limit','C59_order_two','C59_run_direct','C59_direct_limit'],'exact arithmetic; C59_residual_monotone needs a solver exact on consistent systems (exists_consistent_solver)')
c('C60','proved',['C60_khatri_rao_product','C60_abort','C60_entries_lost'],'violated from eleven matrices on')
c('C61','proved',['C61_apply_rankR_update','C61_coherent_iff'],'the coherence of A and the cache is violated by the code; proved: exactly when it holds')
c('C62','proved',['C62_sweeps','C62_descends','C62_converges'],'exact arithmetic; SVD by contract (satisfiable: exists_lrKernOk); meaning of the SH copy as documented by CTF')
c('C58','proved',['C58_dtlr_monotone','C58_lr_update_optimal'],'contract of the dense kernels: LRKernOk, satisfiable (exists_lrKernOk); no monotonicity is claimed for the multi-sweep low-rank optimizer, which corrects an older factor')
c('C57','proved',['C57_tensor','C57_cp','C57_tucker','C57_resprint_zero','C57_no_work','C57_orders_3_5','C57_poisson_odd','C57_poisson2_odd','C57_bad_tensor','C57_orders_3_5_pp','C57_tucker_order3','C57_tucker_order5','C57_dim_limit'],'exact arithmetic; -pp 2 is up to the undefined sort of C56')
c('C63','proved',['C63_options','C63_cp','C63_pp_repetition','C63_pp_idle','C63_repeats','C63_vacuous','C63_tucker','C63_tucker_pp_repetition','C63_tucker_pp_idle','C63_tucker_uneven','C63_tucker_default_ub','C63_unknown_tensor'],'exact arithmetic; kernels by contract; the violations (a)-(e) are theorems')
c('C64','proved',['C64_deterministic','C64_pp_agree','C64_pp_mismatch','C64_pp_all_late','C64_ll_agree','C64_ll_mismatch','C64_cp_pp','C64_bench_rank0'],'collective operations are modelled as data changes common to all ranks; the violations are theorems')
c('C65','proved',['C65_descent','C65_als_converges','C65_limit_points','C65_normalize_objective','C65_legacy_converges'],'lambda > 0 and exact arithmetic; the solver hypothesis SolvesPosDef is met by the Cholesky and SVD solvers (C12); the low-rank optimizers and lambda = 0 (the only value run.cxx uses) are outside the claim')
c('C66','proved',['C66_tucker','C66_tucker_dt','C66_tucker_limit','C66_tucker_dt_limit'],'exact arithmetic, SVD returning leading singular vectors (SvdLeading); optimality of the limit is claimed for the first and the last mode only')
c('C67','proved',['C67_loop','C67_loop_nan_tol','C67_loop_poisoned','C67_als','C67_als_poisoned','C67_pp','C67_pp_nothing','C67_pp_poisoned','C67_tucker_pp_poisoned','C67_pp_poisoned_dt','C67_run_no_limit','C67_test_no_limit','C67_bench_no_limit','C67_run_nan_tol','C67_run_to_end','C67_test_nan_tol','C67_test_nan_tol_pp'],'only the comparisons are IEEE: that NaN data stay NaN is the hypothesis of the _poisoned theorems, not derived from floating-point arithmetic')
c('C68','proved',['C68_dt','C68_msdt','C68_simple','C68_legacy','C68_build_V','C68_residual','C68_bound_small','C68_zero_bounds'],'standard model without overflow and underflow; the linear solver is arbitrary and the final norm of the residual is taken exactly; the legacy sweep without Normalize and with F = 0; PP and Tucker contractions not included')
c('C69','proved',['C69_hosvd','C69_hosvd_exact','C69_hosvd_full','C69_tucker','C69_tucker_dt','C69_test'],'exact arithmetic, SVD returning leading singular vectors (SvdLeading, satisfiable: exists_svdLeading); the Tucker PP driver is outside the claim (its sweeps need not decrease the error)')
c('C70','proved',['C70_cp','C70_cp_update','C70_tucker','C70_tucker_driver','C70_second_order'],'exact arithmetic; the bound for the factor update assumes W = W_init + dW, which the CP driver keeps within a sweep but not across Normalize (C29), so no driver-level bound is claimed for CP')
c('C71','proved',['C71_resume','C71_converged','C71_idempotent','C71_split','C71_split_msdt','C71_split_msdt_differs','C71_cp_dt_idempotent','C71_cp_dt_split'],'exact arithmetic; the file is closed by the first call (CP.cxx:179), so the rows of a second call with the same stream are not written: rows are what the call logs')
c('C72','proved',['C72_stationary_kept','C72_stationary_kept_lr','C72_fixed_is_stationary','C72_fixed_is_stationary_dtlr','C72_exact_kept','C72_exact_kept_legacy'],'exact arithmetic; entries of the factors are compared, not the storage outside the matrices; for MSDTLR only that stationary points are kept (it corrects older factors, so its objective need not decrease); exact decompositions with lambda = 0 are not covered for the low-rank optimizers (their Cholesky contract needs positive definite matrices)')
c('C73','proved',['C73_equivariant','C73_columns','C73_basis','C73_scaling'],'exact arithmetic; the scaling case needs positive definite normal matrices along the run and does not compare the stop tests, because the gradients scale differently by mode; low-rank optimizers not covered')
c('C74','proved',['C74_terms_meaning','C74_same_results','C74_same_results_pp','C74_plain','C74_dt','C74_memory','C74_memory_msdt','C74_msdt','C74_pp_setup','C74_pp_sweep'],'counts products of index expressions; solver kernels, pointwise sums and transpositions are not counted, and how CTF evaluates an expression (order of operands, communication) is not modelled')
c('C75','proved',['C75_dtlr','C75_dtlr_als','C75_msdtlr','C75_msdtlr_als'],'als with the low-rank DT optimizer is compared with DT when the log interval is even: its half sweeps are split elsewhere, so rows of odd iterations, and a stop half a sweep after the last full one, differ')
c('C76','proved',['C76_direct','C76_dt','C76_dtsub','C76_hosvd','C76_tucker','C76_tucker_dt'],'runs in which a leading eigenvalue equals one left out are excluded: there the leading subspace is not unique and the claim is false')
c('C77','proved',['C77_direct','C77_dt','C77_hosvd','C77_tucker','C77_tucker_dt'],'same gap condition as C76')
c('C78','proved',['C78_life','C78_same_factors','C78_checks'],'the constructor taking int pointers stores through an uninitialised pointer and is not modelled; CPD adds a second owner (C45)')
c('C79','proved',['C79_session','C79_test_cpd'],'')
c('C80','proved',['C80_ttmc','C80_core','C80_hosvd','C80_sweep','C80_sweep_dt','C80_check','C80_pp','C80_objective','C80_objective_dt','C80_loss_zero'],'no overflow or underflow; norms in the residual taken exactly; the SVD returns exactly orthonormal columns')
c('C81','proved',['C81_dt','C81_simple','C81_msdt','C81_precision','C81_loss_zero','C81_solver'],'no overflow or underflow; the objective in the statement is the exact one at the computed factors, not a computed residual (for that see C68_residual)')
c('C82','proved',['C82_operators','C82_sweep','C82_first_sweep'],'no overflow or underflow; the sweep is modelled for ratio_step = 1 and without the final Normalize, which breaks W = W_init + dW (see C29)')
c('C83','proved',['C83_cp_update','C83_cp_sweep','C83_tucker_update','C83_tucker_sweep','C83_tucker_phase'],'CP sweeps after the first of a phase start from Normalized factors, for which W = W_init + dW fails (C29); no claim is made for them')
c('C84','proved',['C84_hosvd','C84_tucker','C84_tucker_dt','C84_loss_zero'],'the columns the SVD returns are taken to be exactly orthonormal; no overflow or underflow')
c('C85','proved',['C85_gradnorm','C85_als','C85_precision','C85_any_tolerance'],'no overflow, underflow or NaN (C67 treats these for the stop test); the low-rank optimizers are not modelled with rounding')
c('C86','proved',['C86_als','C86_als_other_ranks','C86_als_bench','C86_als_twice','C86_cp_dt','C86_tucker_dt','C86_tucker_dt_other_ranks','C86_shared_file','C86_pp','C86_pp_other_ranks','C86_pp_bench','C86_bench_cp','C86_bench_tucker'],'which tests are made is C48, C49, C30, C54, C56; numbers are not turned into characters; writes succeed; C86_shared_file assumes that all ranks have opened the file before the first write')
c('C87','proved',['C87_same_results','C87_cp_dt','C87_cp_dt_equal','C87_cp_dt_memory','C87_cp_dt_memory_equal','C87_tucker_plain','C87_tucker_dt','C87_tucker_dt_equal','C87_tucker_dt_sweeps','C87_tucker_dt_memory'],'counts per index expression as written (CTF may split a three-operand expression otherwise); SVD kernels, solves, pointwise sums and Normalize are not counted; the trees work for order 4 and 6 to 31 (CP) or 18 (Tucker), see C24 and C47; C87_tucker_dt_sweeps is C87_tucker_dt over any number of sweeps; the memory bounds sum over a sweep everything filled (an upper bound for what is alive at a time)')
c('C88','proved',['C88_exact','C88_msdt','C88_order3'],'the fixed order 3 example is a violation of the property one would expect (the counter counts sweeps); C18 - C20 and C49 are about an exact counter and hold literally in the cases of C88_exact')
c('C89','proved',['C89_cp_dt','C89_cp_pp','C89_cp_pp_alike','C89_cp_part','C89_pp_columns','C89_pp_basis'],'exact arithmetic; Normalize of a zero factor is 0 in the model where the code makes NaN (in both runs alike); the matrices F of alsCP_DT are zero, as in the mains')
c('C90','proved',['C90_interchangeable','C90_legacy_cp','C90_tucker','C90_normalize'],'exact arithmetic; the log rows are compared without their time column; Normalize of a zero factor is 0 in the model where the code makes NaN (excluded in C90_normalize: positive definite normal-equation matrices)')
c('C91','proved',['C91_off','C91_part_off','C91_until','C91_part_until','C91_tucker_off','C91_tucker_until','C91_test','C91_tucker_test'],'exact arithmetic; the equality with alsCP_DT is for clocks that do not pass the limit (after the limit the PP drivers do not return, C31 and C56), tol < 10 (the drivers start with a gradient norm of 10) and bench off; F is zero as in the mains; for Tucker the results are compared as subspaces, under the eigenvalue gap of C76, because alsTucker_DT_sub chooses signs differently')
