{
 "claims": [
  {
   "property": "C01",
   "status": "proved",
   "theorems": [
    "Properties.C01_direct_mttkrp_exact"
   ],
   "note": "All orders 3..10, uniform mode length; includes that no CTF shape error occurs."
  },
  {
   "property": "C02",
   "status": "proved",
   "theorems": [
    "Properties.C02_unequal_lengths_abort",
    "Properties.C02_succeeds_iff_uniform",
    "Properties.C02_simple_step_abort",
    "Properties.C02_gradient_abort",
    "Properties.C02_als_cp_abort"
   ],
   "note": "The code violates the property; proved: it aborts on every shape whose contracted modes differ, and succeeds iff uniform."
  },
  {
   "property": "C03",
   "status": "proved",
   "theorems": [
    "Properties.C03_label_collision",
    "Properties.C03_simple_step_abort",
    "Properties.C03_gradient_abort",
    "Properties.C03_als_cp_abort"
   ],
   "note": "The code violates the property; proved negation for every order >= 11."
  },
  {
   "property": "C04",
   "status": "proved",
   "theorems": [
    "Properties.C04_dt_step_exact",
    "Properties.C04_msdt_step_exact",
    "Properties.C04_order_two_ub"
   ],
   "note": "Orders 3..31, any shape, any number of earlier steps, any solver."
  },
  {
   "property": "C05",
   "status": "proved",
   "theorems": [
    "Properties.C05_dt_steps_are_sweeps",
    "Properties.C05_dt_eq_simple"
   ],
   "note": ""
  },
  {
   "property": "C06",
   "status": "proved",
   "theorems": [
    "Properties.C06_msdt_cyclic",
    "Properties.C06_msdt_sweeps"
   ],
   "note": ""
  },
  {
   "property": "C07",
   "status": "proved",
   "theorems": [
    "Properties.C07_dtlr_pair_is_sweep",
    "Properties.C07_dtlr_schedule"
   ],
   "note": ""
  },
  {
   "property": "C08",
   "status": "proved",
   "theorems": [
    "Properties.C08_dtlr_cache_coherent"
   ],
   "note": ""
  },
  {
   "property": "C09",
   "status": "proved",
   "theorems": [
    "Properties.C09_msdtlr_cache_coherent"
   ],
   "note": ""
  },
  {
   "property": "C10",
   "status": "proved",
   "theorems": [
    "Properties.C10_update_S",
    "Properties.C10_update_S_ignores_own_factor"
   ],
   "note": ""
  },
  {
   "property": "C11",
   "status": "proved",
   "theorems": [
    "Properties.C11_simple_gradient",
    "Properties.C11_dt_gradient",
    "Properties.C11_msdt_gradient",
    "Properties.C11_dtlr_gradient",
    "Properties.C11_msdtlr_gradient",
    "Properties.C11_gradient_is_derivative"
   ],
   "note": ""
  },
  {
   "property": "C12",
   "status": "proved",
   "theorems": [
    "Properties.C12_cholesky_solve",
    "Properties.C12_svd_solve",
    "Properties.C12_cholesky_solver",
    "Properties.C12_svd_solver",
    "Properties.exists_kernOk"
   ],
   "note": "Relative to the contracts of CTF cholesky/solve_tri/svd, which are shown satisfiable over the reals."
  },
  {
   "property": "C13",
   "status": "proved",
   "theorems": [
    "Properties.C13_update_is_global_minimiser",
    "Properties.C13_simple_monotone",
    "Properties.C13_dt_monotone",
    "Properties.C13_msdt_monotone",
    "Properties.C13_simple_monotone_cholesky",
    "Properties.C13_dt_monotone_cholesky",
    "Properties.C13_msdt_monotone_cholesky"
   ],
   "note": ""
  },
  {
   "property": "C14",
   "status": "proved",
   "theorems": [
    "Properties.C14_rankR_residual",
    "Properties.C14_rankR_optimal",
    "Properties.C14_rankR_random",
    "Properties.C14_rankR_optimal_svd",
    "Properties.C14_rankR_random_descends",
    "Properties.C14_lrSolver_best",
    "Properties.C14_lrSolver_descends",
    "Properties.C14_rankR_svd_variant_optimal",
    "Properties.C14_rankR_svd_variant_exact",
    "Properties.C14_rankR_variants_agree",
    "Properties.C14_rankR_svd_variant_random_descends"
   ],
   "note": "both variants, Cholesky and SVD of gamma"
  },
  {
   "property": "C15",
   "status": "proved",
   "theorems": [
    "Properties.C15_build_V",
    "Properties.C15_build_V_limit",
    "Properties.C15_build_V_vec"
   ],
   "note": "Orders 2..18; from order 20 on undefined behaviour is proved. Order 19 depends on CTF accepting NUL as a label and is not claimed."
  },
  {
   "property": "C16",
   "status": "proved",
   "theorems": [
    "Properties.C16_residual",
    "Properties.C16_gradnorm"
   ],
   "note": ""
  },
  {
   "property": "C17",
   "status": "proved",
   "theorems": [
    "Properties.C17_normalize"
   ],
   "note": ""
  },
  {
   "property": "C18",
   "status": "proved",
   "theorems": [
    "Properties.C18_als_terminates",
    "Properties.C18_fuel_irrelevant"
   ],
   "note": "All five optimizers, instantiated with the modelled step functions; no hypothesis that steps succeed."
  },
  {
   "property": "C19",
   "status": "proved",
   "theorems": [
    "Properties.C19_result_simple_dt",
    "Properties.C19_result_msdt"
   ],
   "note": "Holds for Simple/DT/DTLR. The code violates it for MSDT/MSDTLR: proved exactly when, for an exact counter of sweeps; C88 is about the double."
  },
  {
   "property": "C20",
   "status": "proved",
   "theorems": [
    "Properties.C20_stop_reason"
   ],
   "note": ""
  },
  {
   "property": "C21",
   "status": "proved",
   "theorems": [
    "Properties.C21_resprint_zero"
   ],
   "note": "The code violates the property; proved that every entered loop is undefined behaviour."
  },
  {
   "property": "C22",
   "status": "proved",
   "theorems": [
    "Properties.C22_records",
    "Properties.C22_same_domain",
    "Properties.C22_leaves",
    "Properties.C22_children"
   ],
   "note": "Orders 2..159 (from 160 on the letter of mode 159 is NUL)."
  },
  {
   "property": "C23",
   "status": "proved",
   "theorems": [
    "Properties.C23_node_exact",
    "Properties.C23_mttkrp_exact",
    "Properties.C25_sweep_exact"
   ],
   "note": "Orders 4, 6..31; arbitrary mode lengths. Caches arising inside a sweep: C25_sweep_exact with an arbitrary solver."
  },
  {
   "property": "C24",
   "status": "proved",
   "theorems": [
    "Properties.C24_order5_ub",
    "Properties.C24_order3_diverges",
    "Properties.C24_order3_no_sweep",
    "Properties.C35_order5_sweep",
    "Properties.C35_order3_no_sweep"
   ],
   "note": "The property is violated by the code; the theorems prove the violation for all inputs of order 5 and 3."
  },
  {
   "property": "C25",
   "status": "proved",
   "theorems": [
    "Properties.C25_sweep_exact",
    "Properties.C25_sweep_is_als",
    "Properties.C25_sweep_normalized"
   ],
   "note": "Includes the matrices F and the final Normalize."
  },
  {
   "property": "C26",
   "status": "proved",
   "theorems": [
    "Properties.C26_operators_exact",
    "Properties.C26_build_any_map",
    "Properties.C26_overflow"
   ],
   "note": "Orders 3..9; from order 10 on the 8-byte key buffer overflows, proved as undefined behaviour."
  },
  {
   "property": "C27",
   "status": "proved",
   "theorems": [
    "Properties.C27_first_order",
    "Properties.C27_exact",
    "Properties.C27_error_order",
    "Properties.C27_update"
   ],
   "note": ""
  },
  {
   "property": "C28",
   "status": "proved",
   "theorems": [
    "Properties.C28_svd_solve_mod"
   ],
   "note": ""
  },
  {
   "property": "C29",
   "status": "proved",
   "theorems": [
    "Properties.C29_updates",
    "Properties.C29_normalize_breaks",
    "Properties.C29_concrete"
   ],
   "note": "Holds through the factor updates; Normalize in the sweep breaks it, proved with a concrete run."
  },
  {
   "property": "C30",
   "status": "proved",
   "theorems": [
    "Properties.C30_terminates",
    "Properties.C30_exit",
    "Properties.C30_bench"
   ],
   "note": "Orders 4, 6..9 (those for which both phases are defined). Concrete driver alsCP_PP with the modelled computations."
  },
  {
   "property": "C31",
   "status": "proved",
   "theorems": [
    "Properties.C31_livelock",
    "Properties.C31_livelock_later"
   ],
   "note": "The code violates the property; the livelock is proved."
  },
  {
   "property": "C32",
   "status": "proved",
   "theorems": [
    "Properties.C32_partial_update",
    "Properties.C32_overrun",
    "Properties.C32_sortable",
    "Properties.C32_nan_unsortable",
    "Properties.exists_sort"
   ],
   "note": "std::sort enters by its contract (permutation, ordered, precondition strict weak order); p <= 1 needed"
  },
  {
   "property": "C33",
   "status": "proved",
   "theorems": [
    "Properties.C33_ttmc",
    "Properties.C33_ttmc_all",
    "Properties.C33_order_one",
    "Properties.C33_label_collision"
   ],
   "note": "orders 2..10 (1..10 with i=-1); outside this range the violation is proved"
  },
  {
   "property": "C34",
   "status": "proved",
   "theorems": [
    "Properties.C34_core_is_ttmc",
    "Properties.C34_core_exact",
    "Properties.C34_hosvd"
   ],
   "note": "orders 1..10 for equality with TTMc, 1..18 for the exact core"
  },
  {
   "property": "C35",
   "status": "proved",
   "theorems": [
    "Properties.C35_tree_exact",
    "Properties.C35_sweep_exact",
    "Properties.C35_tree_eq_direct",
    "Properties.C35_order5_abort",
    "Properties.C35_order5_sweep",
    "Properties.C35_order3_diverges",
    "Properties.C35_order3_no_sweep"
   ],
   "note": "orders 4, 6..31 (sweep 4, 6..18); orders 3 and 5 proved to fail"
  },
  {
   "property": "C36",
   "status": "proved",
   "theorems": [
    "Properties.C36_operators_exact",
    "Properties.C36_overflow",
    "Properties.C36_first_order",
    "Properties.C36_exact",
    "Properties.C36_error_order",
    "Properties.C36_update",
    "Properties.C36_sweep",
    "Properties.C36_phase"
   ],
   "note": "orders 3..9; overflow proved elsewhere"
  },
  {
   "property": "C37",
   "status": "proved",
   "theorems": [
    "Properties.C37_sign",
    "Properties.C37_sign_iff",
    "Properties.C37_dead_branch",
    "Properties.C37_harmless",
    "Properties.C37_sweep"
   ],
   "note": ""
  },
  {
   "property": "C38",
   "status": "proved",
   "theorems": [
    "Properties.C38_update_optimal",
    "Properties.C38_direct_monotone",
    "Properties.C38_dt_monotone",
    "Properties.C38_dtsub_monotone",
    "Properties.C38_error_identity",
    "Properties.C38_check"
   ],
   "note": "SVD enters by its contract: leading left singular vectors of the given PSD matrix (contract shown satisfiable: exists_svdLeading)"
  },
  {
   "property": "C39",
   "status": "proved",
   "theorems": [
    "Properties.C39_identity",
    "Properties.C39_laplacian",
    "Properties.C39_random_laplacian",
    "Properties.C39_order_two",
    "Properties.C39_odd_order"
   ],
   "note": "d up to 79 (letters stay non-NUL); for d = 1 the failure is proved, for odd orders the wrong tensor is identified"
  },
  {
   "property": "C40",
   "status": "proved",
   "theorems": [
    "Properties.C40_fold",
    "Properties.C40_fold_pairs",
    "Properties.C40_roundtrip",
    "Properties.C40_too_small"
   ],
   "note": "every distribution of the data over the ranks; read_local/write enter by their contract"
  },
  {
   "property": "C41",
   "status": "proved",
   "theorems": [
    "Properties.C41_unit",
    "Properties.C41_latin"
   ],
   "note": "every number of ranks"
  },
  {
   "property": "C42",
   "status": "proved",
   "theorems": [
    "Properties.C42_gram_schmidt",
    "Properties.C42_gram_schmidt_real"
   ],
   "note": ""
  },
  {
   "property": "C43",
   "status": "proved",
   "theorems": [
    "Properties.C43_window",
    "Properties.C43_empty_window",
    "Properties.C43_unreachable_window",
    "Properties.C43_returns",
    "Properties.C43_zero_vectors_pass"
   ],
   "note": "the random stream is arbitrary; zero vectors (collinearity NaN) are the only exception and proved to pass"
  },
  {
   "property": "C44",
   "status": "proved",
   "theorems": [
    "Properties.C44_lookup",
    "Properties.C44_lookup_none",
    "Properties.C44_values",
    "Properties.C44_ranges",
    "Properties.C44_defined",
    "Properties.C44_atoi",
    "Properties.C44_garbage",
    "Properties.C44_nan",
    "Properties.C44_resprint_zero",
    "Properties.C44_test_values",
    "Properties.C44_test_rank"
   ],
   "note": "NaN passes every clamp and -resprint 0 is accepted (division by zero follows): both violations are proved"
  },
  {
   "property": "C45",
   "status": "proved",
   "theorems": [
    "Properties.C45_one_init",
    "Properties.C45_no_init",
    "Properties.C45_second_init",
    "Properties.C45_iff",
    "Properties.C45_copy",
    "Properties.C45_both_free"
   ],
   "note": "the code violates the property for a second Init and for copies; leak of old_W in the MSDT low-rank optimizer included"
  },
  {
   "property": "C46",
   "status": "proved",
   "theorems": [
    "Properties.C46_agree",
    "Properties.C46_disagree",
    "Properties.C46_deadlock_first"
   ],
   "note": "exact criterion; the violation (deadlock when the rank-local clocks disagree) is proved"
  },
  {
   "property": "C47",
   "status": "proved",
   "theorems": [
    "Properties.C47_vec2str",
    "Properties.C47_injective",
    "Properties.C47_collision",
    "Properties.C47_complement",
    "Properties.C47_literal",
    "Properties.C47_unsorted"
   ],
   "note": ""
  },
  {
   "property": "C48",
   "status": "proved",
   "theorems": [
    "Properties.C48_cp",
    "Properties.C48_cp_sweep",
    "Properties.C48_cp_dt",
    "Properties.C48_cp_dt_zero_gradient",
    "Properties.C48_tucker",
    "Properties.C48_tucker_dt"
   ],
   "note": "alsCP for equal mode lengths (C02), order 2..10; alsCP_DT orders 4, 6..18; Tucker 2..10 and 4, 6..10; every clock, solver and SVD"
  },
  {
   "property": "C49",
   "status": "proved",
   "theorems": [
    "Properties.C49_log_rows"
   ],
   "note": ""
  },
  {
   "property": "C50",
   "status": "proved",
   "theorems": [
    "Properties.C50_cyclic_exact",
    "Properties.C50_first_sweep",
    "Properties.C50_sweep_hist",
    "Properties.C50_deficit",
    "Properties.C50_concrete"
   ],
   "note": "violation shown by a concrete run: second sweep starts with mode 1 and drops the contribution of mode 0"
  },
  {
   "property": "C51",
   "status": "proved",
   "theorems": [
    "Properties.C51_consistent",
    "Properties.C51_default_aborts",
    "Properties.C51_no_arguments",
    "Properties.C51_datasets",
    "Properties.C51_kinds"
   ],
   "note": "violation proved for the default tensor and the data sets"
  },
  {
   "property": "C52",
   "status": "proved",
   "theorems": [
    "Properties.C52_noise"
   ],
   "note": ""
  },
  {
   "property": "C53",
   "status": "proved",
   "theorems": [
    "Properties.C53_tucker_dt",
    "Properties.C53_tucker",
    "Properties.C53_tucker_violated"
   ],
   "note": "violation by alsTucker returning false proved for every correct SVD"
  },
  {
   "property": "C54",
   "status": "proved",
   "theorems": [
    "Properties.C54_exit",
    "Properties.C54_terminates",
    "Properties.C54_always",
    "Properties.C54_livelock_later",
    "Properties.C54_livelock",
    "Properties.C54_tol_schedule",
    "Properties.C54_tol_floor"
   ],
   "note": "violation (no return after the time limit) proved"
  },
  {
   "property": "C55",
   "status": "proved",
   "theorems": [
    "Properties.C55_cp",
    "Properties.C55_tucker"
   ],
   "note": "the driver equals an instrumented driver in which a PP sweep outside the condition aborts"
  },
  {
   "property": "C56",
   "status": "proved",
   "theorems": [
    "Properties.C56_terminates",
    "Properties.C56_exit",
    "Properties.C56_livelock",
    "Properties.C56_guard",
    "Properties.C56_sort_undefined"
   ],
   "note": "both violations proved; termination is up to the undefined sort, whose reachability is shown by C56_sort_undefined"
  },
  {
   "property": "C57",
   "status": "proved",
   "theorems": [
    "Properties.C57_tensor",
    "Properties.C57_cp",
    "Properties.C57_tucker",
    "Properties.C57_resprint_zero",
    "Properties.C57_no_work",
    "Properties.C57_orders_3_5",
    "Properties.C57_poisson_odd",
    "Properties.C57_poisson2_odd",
    "Properties.C57_bad_tensor",
    "Properties.C57_orders_3_5_pp",
    "Properties.C57_tucker_order3",
    "Properties.C57_tucker_order5",
    "Properties.C57_dim_limit"
   ],
   "note": "exact arithmetic; -pp 2 is up to the undefined sort of C56"
  },
  {
   "property": "C58",
   "status": "proved",
   "theorems": [
    "Properties.C58_dtlr_monotone",
    "Properties.C58_lr_update_optimal"
   ],
   "note": "contract of the dense kernels: LRKernOk, satisfiable (exists_lrKernOk); no monotonicity is claimed for the multi-sweep low-rank optimizer, which corrects an older factor"
  },
  {
   "property": "C59",
   "status": "proved",
   "theorems": [
    "Properties.C59_run",
    "Properties.C59_residual_monotone",
    "Properties.C59_poisson_aborts",
    "Properties.C59_datasets_abort",
    "Properties.C59_no_decomposition",
    "Properties.C59_ignored_options",
    "Properties.C59_bad_tensor",
    "Properties.C59_dim_limit",
    "Properties.C59_order_two",
    "Properties.C59_run_direct",
    "Properties.C59_direct_limit"
   ],
   "note": "exact arithmetic; C59_residual_monotone needs a solver exact on consistent systems (exists_consistent_solver)"
  },
  {
   "property": "C60",
   "status": "proved",
   "theorems": [
    "Properties.C60_khatri_rao_product",
    "Properties.C60_abort",
    "Properties.C60_entries_lost"
   ],
   "note": "violated from eleven matrices on"
  },
  {
   "property": "C61",
   "status": "proved",
   "theorems": [
    "Properties.C61_apply_rankR_update",
    "Properties.C61_coherent_iff"
   ],
   "note": "the coherence of A and the cache is violated by the code; proved: exactly when it holds"
  },
  {
   "property": "C62",
   "status": "proved",
   "theorems": [
    "Properties.C62_sweeps",
    "Properties.C62_descends",
    "Properties.C62_converges"
   ],
   "note": "exact arithmetic; SVD by contract (satisfiable: exists_lrKernOk); meaning of the SH copy as documented by CTF"
  },
  {
   "property": "C63",
   "status": "proved",
   "theorems": [
    "Properties.C63_options",
    "Properties.C63_cp",
    "Properties.C63_pp_repetition",
    "Properties.C63_pp_idle",
    "Properties.C63_repeats",
    "Properties.C63_vacuous",
    "Properties.C63_tucker",
    "Properties.C63_tucker_pp_repetition",
    "Properties.C63_tucker_pp_idle",
    "Properties.C63_tucker_uneven",
    "Properties.C63_tucker_default_ub",
    "Properties.C63_unknown_tensor"
   ],
   "note": "exact arithmetic; kernels by contract; the violations (a)-(e) are theorems"
  },
  {
   "property": "C64",
   "status": "proved",
   "theorems": [
    "Properties.C64_deterministic",
    "Properties.C64_pp_agree",
    "Properties.C64_pp_mismatch",
    "Properties.C64_pp_all_late",
    "Properties.C64_ll_agree",
    "Properties.C64_ll_mismatch",
    "Properties.C64_cp_pp",
    "Properties.C64_bench_rank0"
   ],
   "note": "collective operations are modelled as data changes common to all ranks; the violations are theorems"
  },
  {
   "property": "C65",
   "status": "proved",
   "theorems": [
    "Properties.C65_descent",
    "Properties.C65_als_converges",
    "Properties.C65_limit_points",
    "Properties.C65_normalize_objective",
    "Properties.C65_legacy_converges"
   ],
   "note": "lambda > 0 and exact arithmetic; the solver hypothesis SolvesPosDef is met by the Cholesky and SVD solvers (C12); the low-rank optimizers and lambda = 0 (the only value run.cxx uses) are outside the claim"
  },
  {
   "property": "C66",
   "status": "proved",
   "theorems": [
    "Properties.C66_tucker",
    "Properties.C66_tucker_dt",
    "Properties.C66_tucker_limit",
    "Properties.C66_tucker_dt_limit"
   ],
   "note": "exact arithmetic, SVD returning leading singular vectors (SvdLeading); optimality of the limit is claimed for the first and the last mode only"
  },
  {
   "property": "C67",
   "status": "proved",
   "theorems": [
    "Properties.C67_loop",
    "Properties.C67_loop_nan_tol",
    "Properties.C67_loop_poisoned",
    "Properties.C67_als",
    "Properties.C67_als_poisoned",
    "Properties.C67_pp",
    "Properties.C67_pp_nothing",
    "Properties.C67_pp_poisoned",
    "Properties.C67_tucker_pp_poisoned",
    "Properties.C67_pp_poisoned_dt",
    "Properties.C67_run_no_limit",
    "Properties.C67_test_no_limit",
    "Properties.C67_bench_no_limit",
    "Properties.C67_run_nan_tol",
    "Properties.C67_run_to_end",
    "Properties.C67_test_nan_tol",
    "Properties.C67_test_nan_tol_pp"
   ],
   "note": "only the comparisons are IEEE: that NaN data stay NaN is the hypothesis of the _poisoned theorems, not derived from floating-point arithmetic"
  },
  {
   "property": "C68",
   "status": "proved",
   "theorems": [
    "Properties.C68_dt",
    "Properties.C68_msdt",
    "Properties.C68_simple",
    "Properties.C68_legacy",
    "Properties.C68_build_V",
    "Properties.C68_residual",
    "Properties.C68_bound_small",
    "Properties.C68_zero_bounds"
   ],
   "note": "standard model without overflow and underflow; the linear solver is arbitrary and the final norm of the residual is taken exactly; the legacy sweep without Normalize and with F = 0; PP and Tucker contractions not included"
  },
  {
   "property": "C69",
   "status": "proved",
   "theorems": [
    "Properties.C69_hosvd",
    "Properties.C69_hosvd_exact",
    "Properties.C69_hosvd_full",
    "Properties.C69_tucker",
    "Properties.C69_tucker_dt",
    "Properties.C69_test"
   ],
   "note": "exact arithmetic, SVD returning leading singular vectors (SvdLeading, satisfiable: exists_svdLeading); the Tucker PP driver is outside the claim (its sweeps need not decrease the error)"
  },
  {
   "property": "C70",
   "status": "proved",
   "theorems": [
    "Properties.C70_cp",
    "Properties.C70_cp_update",
    "Properties.C70_tucker",
    "Properties.C70_tucker_driver",
    "Properties.C70_second_order"
   ],
   "note": "exact arithmetic; the bound for the factor update assumes W = W_init + dW, which the CP driver keeps within a sweep but not across Normalize (C29), so no driver-level bound is claimed for CP"
  },
  {
   "property": "C71",
   "status": "proved",
   "theorems": [
    "Properties.C71_resume",
    "Properties.C71_converged",
    "Properties.C71_idempotent",
    "Properties.C71_split",
    "Properties.C71_split_msdt",
    "Properties.C71_split_msdt_differs",
    "Properties.C71_cp_dt_idempotent",
    "Properties.C71_cp_dt_split"
   ],
   "note": "exact arithmetic; the file is closed by the first call (CP.cxx:179), so the rows of a second call with the same stream are not written: rows are what the call logs"
  },
  {
   "property": "C72",
   "status": "proved",
   "theorems": [
    "Properties.C72_stationary_kept",
    "Properties.C72_stationary_kept_lr",
    "Properties.C72_fixed_is_stationary",
    "Properties.C72_fixed_is_stationary_dtlr",
    "Properties.C72_exact_kept",
    "Properties.C72_exact_kept_legacy"
   ],
   "note": "exact arithmetic; entries of the factors are compared, not the storage outside the matrices; for MSDTLR only that stationary points are kept (it corrects older factors, so its objective need not decrease); exact decompositions with lambda = 0 are not covered for the low-rank optimizers (their Cholesky contract needs positive definite matrices)"
  },
  {
   "property": "C73",
   "status": "proved",
   "theorems": [
    "Properties.C73_equivariant",
    "Properties.C73_columns",
    "Properties.C73_basis",
    "Properties.C73_scaling"
   ],
   "note": "exact arithmetic; the scaling case needs positive definite normal matrices along the run and does not compare the stop tests, because the gradients scale differently by mode; low-rank optimizers not covered"
  },
  {
   "property": "C74",
   "status": "proved",
   "theorems": [
    "Properties.C74_terms_meaning",
    "Properties.C74_same_results",
    "Properties.C74_same_results_pp",
    "Properties.C74_plain",
    "Properties.C74_dt",
    "Properties.C74_memory",
    "Properties.C74_memory_msdt",
    "Properties.C74_msdt",
    "Properties.C74_pp_setup",
    "Properties.C74_pp_sweep"
   ],
   "note": "counts products of index expressions; solver kernels, pointwise sums and transpositions are not counted, and how CTF evaluates an expression (order of operands, communication) is not modelled"
  },
  {
   "property": "C75",
   "status": "proved",
   "theorems": [
    "Properties.C75_dtlr",
    "Properties.C75_dtlr_als",
    "Properties.C75_msdtlr",
    "Properties.C75_msdtlr_als"
   ],
   "note": "als with the low-rank DT optimizer is compared with DT when the log interval is even: its half sweeps are split elsewhere, so rows of odd iterations, and a stop half a sweep after the last full one, differ"
  },
  {
   "property": "C76",
   "status": "proved",
   "theorems": [
    "Properties.C76_direct",
    "Properties.C76_dt",
    "Properties.C76_dtsub",
    "Properties.C76_hosvd",
    "Properties.C76_tucker",
    "Properties.C76_tucker_dt"
   ],
   "note": "runs in which a leading eigenvalue equals one left out are excluded: there the leading subspace is not unique and the claim is false"
  },
  {
   "property": "C77",
   "status": "proved",
   "theorems": [
    "Properties.C77_direct",
    "Properties.C77_dt",
    "Properties.C77_hosvd",
    "Properties.C77_tucker",
    "Properties.C77_tucker_dt"
   ],
   "note": "same gap condition as C76"
  },
  {
   "property": "C78",
   "status": "proved",
   "theorems": [
    "Properties.C78_life",
    "Properties.C78_same_factors",
    "Properties.C78_checks"
   ],
   "note": "the constructor taking int pointers stores through an uninitialised pointer and is not modelled; CPD adds a second owner (C45)"
  },
  {
   "property": "C79",
   "status": "proved",
   "theorems": [
    "Properties.C79_session",
    "Properties.C79_test_cpd"
   ],
   "note": ""
  },
  {
   "property": "C80",
   "status": "proved",
   "theorems": [
    "Properties.C80_ttmc",
    "Properties.C80_core",
    "Properties.C80_hosvd",
    "Properties.C80_sweep",
    "Properties.C80_sweep_dt",
    "Properties.C80_check",
    "Properties.C80_pp",
    "Properties.C80_objective",
    "Properties.C80_objective_dt",
    "Properties.C80_loss_zero"
   ],
   "note": "no overflow or underflow; norms in the residual taken exactly; the SVD returns exactly orthonormal columns"
  },
  {
   "property": "C81",
   "status": "proved",
   "theorems": [
    "Properties.C81_dt",
    "Properties.C81_simple",
    "Properties.C81_msdt",
    "Properties.C81_precision",
    "Properties.C81_loss_zero",
    "Properties.C81_solver"
   ],
   "note": "no overflow or underflow; the objective in the statement is the exact one at the computed factors, not a computed residual (for that see C68_residual)"
  },
  {
   "property": "C82",
   "status": "proved",
   "theorems": [
    "Properties.C82_operators",
    "Properties.C82_sweep",
    "Properties.C82_first_sweep"
   ],
   "note": "no overflow or underflow; the sweep is modelled for ratio_step = 1 and without the final Normalize, which breaks W = W_init + dW (see C29)"
  },
  {
   "property": "C83",
   "status": "proved",
   "theorems": [
    "Properties.C83_cp_update",
    "Properties.C83_cp_sweep",
    "Properties.C83_tucker_update",
    "Properties.C83_tucker_sweep",
    "Properties.C83_tucker_phase"
   ],
   "note": "CP sweeps after the first of a phase start from Normalized factors, for which W = W_init + dW fails (C29); no claim is made for them"
  },
  {
   "property": "C84",
   "status": "proved",
   "theorems": [
    "Properties.C84_hosvd",
    "Properties.C84_tucker",
    "Properties.C84_tucker_dt",
    "Properties.C84_loss_zero"
   ],
   "note": "the columns the SVD returns are taken to be exactly orthonormal; no overflow or underflow"
  },
  {
   "property": "C85",
   "status": "proved",
   "theorems": [
    "Properties.C85_gradnorm",
    "Properties.C85_als",
    "Properties.C85_precision",
    "Properties.C85_any_tolerance"
   ],
   "note": "no overflow, underflow or NaN (C67 treats these for the stop test); the low-rank optimizers are not modelled with rounding"
  },
  {
   "property": "C86",
   "status": "proved",
   "theorems": [
    "Properties.C86_als",
    "Properties.C86_als_other_ranks",
    "Properties.C86_als_bench",
    "Properties.C86_als_twice",
    "Properties.C86_cp_dt",
    "Properties.C86_tucker_dt",
    "Properties.C86_tucker_dt_other_ranks",
    "Properties.C86_shared_file",
    "Properties.C86_pp",
    "Properties.C86_pp_other_ranks",
    "Properties.C86_pp_bench",
    "Properties.C86_bench_cp",
    "Properties.C86_bench_tucker"
   ],
   "note": "which tests are made is C48, C49, C30, C54, C56; numbers are not turned into characters; writes succeed; C86_shared_file assumes that all ranks have opened the file before the first write"
  },
  {
   "property": "C87",
   "status": "proved",
   "theorems": [
    "Properties.C87_same_results",
    "Properties.C87_cp_dt",
    "Properties.C87_cp_dt_equal",
    "Properties.C87_cp_dt_memory",
    "Properties.C87_cp_dt_memory_equal",
    "Properties.C87_tucker_plain",
    "Properties.C87_tucker_dt",
    "Properties.C87_tucker_dt_equal",
    "Properties.C87_tucker_dt_sweeps",
    "Properties.C87_tucker_dt_memory"
   ],
   "note": "counts per index expression as written (CTF may split a three-operand expression otherwise); SVD kernels, solves, pointwise sums and Normalize are not counted; the trees work for order 4 and 6 to 31 (CP) or 18 (Tucker), see C24 and C47; C87_tucker_dt_sweeps is C87_tucker_dt over any number of sweeps; the memory bounds sum over a sweep everything filled (an upper bound for what is alive at a time)"
  },
  {
   "property": "C88",
   "status": "proved",
   "theorems": [
    "Properties.C88_exact",
    "Properties.C88_msdt",
    "Properties.C88_order3"
   ],
   "note": "the fixed order 3 example is a violation of the property one would expect (the counter counts sweeps); C18 - C20 and C49 are about an exact counter and hold literally in the cases of C88_exact"
  },
  {
   "property": "C89",
   "status": "proved",
   "theorems": [
    "Properties.C89_cp_dt",
    "Properties.C89_cp_pp",
    "Properties.C89_cp_pp_alike",
    "Properties.C89_cp_part",
    "Properties.C89_pp_columns",
    "Properties.C89_pp_basis"
   ],
   "note": "exact arithmetic; Normalize of a zero factor is 0 in the model where the code makes NaN (in both runs alike); the matrices F of alsCP_DT are zero, as in the mains"
  },
  {
   "property": "C90",
   "status": "proved",
   "theorems": [
    "Properties.C90_interchangeable",
    "Properties.C90_legacy_cp",
    "Properties.C90_tucker",
    "Properties.C90_normalize"
   ],
   "note": "exact arithmetic; the log rows are compared without their time column; Normalize of a zero factor is 0 in the model where the code makes NaN (excluded in C90_normalize: positive definite normal-equation matrices)"
  },
  {
   "property": "C91",
   "status": "proved",
   "theorems": [
    "Properties.C91_off",
    "Properties.C91_part_off",
    "Properties.C91_until",
    "Properties.C91_part_until",
    "Properties.C91_tucker_off",
    "Properties.C91_tucker_until",
    "Properties.C91_test",
    "Properties.C91_tucker_test"
   ],
   "note": "exact arithmetic; the equality with alsCP_DT is for clocks that do not pass the limit (after the limit the PP drivers do not return, C31 and C56), tol < 10 (the drivers start with a gradient norm of 10) and bench off; F is zero as in the mains; for Tucker the results are compared as subspaces, under the eigenvalue gap of C76, because alsTucker_DT_sub chooses signs differently"
  }
 ]
}