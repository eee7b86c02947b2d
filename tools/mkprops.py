import json
P=[]
def p(title,statement,quant,why,anchors):
    P.append(dict(id="C%02d"%(len(P)+1),title=title,statement=statement,quantifier=quant,why_tests_cant=why,anchors=anchors))
p("Direct MTTKRP is the MTTKRP",
 "On a tensor whose modes all have the same length, the direct contraction used by CPSimpleOptimizer::step / KhatriRao_contract completes without a CTF shape error and its result is M[x,r] = sum over all tensor indices with i-th index x of V[idx] * prod_{j!=i} W_j[idx_j,r].",
 "every order 3..10, mode i, length, rank, tensor and factor values",
 "the claim is a tensor identity over all orders, sizes and real values; tests fix a handful",
 ["common.cxx:KhatriRao_contract","src/optimizer/cp_simple_optimizer.cxx:step"])
p("Direct MTTKRP accepts tensors with unequal mode lengths",
 "KhatriRao_contract (hence alsCP, gradient_CP) works for tensors whose modes have different lengths. The code VIOLATES this: intermediate shapes are shifted by one mode, so CTF rejects the contraction as soon as the first two contracted modes differ in length.",
 "every tensor shape with unequal leading lengths", "whether a shape is rejected depends on all combinations of lengths and modes",
 ["common.cxx:KhatriRao_contract","common.cxx:gradient_CP","als_CP.cxx:alsCP"])
p("Index labels of the direct MTTKRP never collide",
 "The contraction labels used by KhatriRao_contract denote distinct modes. The code VIOLATES this for order >= 11: the rank label 'k' equals the label of mode 10.",
 "every order 11..31", "tests use small orders; the boundary is only visible over all orders",
 ["common.cxx:KhatriRao_contract"])
p("Dimension-tree MTTKRP (DT / MSDT optimizers) is exact whatever was cached",
 "In one DT or MSDT step, the matrix M used to update the k-th mode of the step is the exact MTTKRP of the current factors (modes already updated in this step at their new value, the others at their old value), although intermediates are cached and reused between updates.",
 "every order 3..31, mode lengths, rank, tensor, factor values, every solver and every position in the step",
 "staleness of a cached intermediate shows only for particular orders/positions and depends on every previous update",
 ["src/optimizer/cp_dt_optimizer.cxx:mttkrp_map_DT,Construct_Subtree,Right_Subtree,step","src/optimizer/cp_msdt_optimizer.cxx:step"])
p("Two DT steps are one plain ALS sweep",
 "Two consecutive CPDTOptimizer::step calls from a fresh optimizer state leave the same factors and gradients as one sweep of plain ALS over modes 0..N-1 (CPSimpleOptimizer::step).",
 "every order, sizes, tensor, initial factors, solver, and number of sweeps", "equivalence of two programs over all inputs and all numbers of sweeps",
 ["src/optimizer/cp_dt_optimizer.cxx:step","src/optimizer/cp_simple_optimizer.cxx:step"])
p("MSDT performs cyclic ALS",
 "After k MSDT steps from a fresh optimizer the factors are those after the first k*(N-1) single-mode updates of cyclic ALS 0,1,..,N-1,0,1,..; in particular N MSDT steps equal N-1 plain sweeps, which is what the returned sweep fraction (N-1)/N claims.",
 "every order, every number of steps, all inputs and solvers", "the rotating left index makes the claim about an unbounded history of steps",
 ["src/optimizer/cp_msdt_optimizer.cxx:update_indexes,step"])
p("DT low-rank schedule updates every mode exactly once per sweep",
 "For CPDTLROptimizer, every pair of consecutive steps (first and second subtree) updates modes 0,1,..,N-1 each exactly once, in increasing order, for every value of special_index reached, i.e. before and after every rotation of the tree.",
 "every order >= 3 and every number of steps", "the rotation state evolves over 5*(N-1) sweeps before repeating",
 ["src/optimizer/cp_dt_lr_optimizer.cxx:step"])
p("DT low-rank cache is coherent",
 "Whenever CPDTLROptimizer starts a step, the top-of-tree tensor it uses (fresh or patched by the last low-rank update) equals V contracted with the current W[left_index].",
 "every history of steps, all inputs, every low-rank factorization returned", "a stale cache needs a particular history of 10+ steps and rotations",
 ["src/optimizer/cp_dt_lr_optimizer.cxx:mttkrp_map_init,update_cached_tensor,step"])
p("MSDT low-rank cache is coherent",
 "Whenever CPMSDTLROptimizer starts a step, the top-of-tree tensor it uses equals V contracted with the current W[left_index], and old_W is the factor the cache was built from.",
 "every history of steps, all inputs, every low-rank factorization returned", "depends on unbounded history of rotations",
 ["src/optimizer/cp_msdt_lr_optimizer.cxx:mttkrp_map_init,update_cached_tensor,step"])
p("update_S builds the regularised Gram product",
 "update_S(i) computes S[a,b] = prod_{j!=i} (W_j^T W_j)[a,b] + lambda*delta_ab; W_i does not influence it; S is symmetric.",
 "every order >= 2, mode, sizes, factors, lambda", "identity over all values",
 ["src/optimizer/cp_als_optimizer.cxx:update_S,configure"])
p("grad_W is the gradient of the objective",
 "The matrix stored in grad_W[i] by a step is the exact gradient, with respect to W_i, of 1/2||V-[[W]]||^2 + lambda/2||W_i||^2 at the factors in force when mode i is updated: f(W_i+D) = f(W_i) + <grad,D> + quadratic term.",
 "all tensors, factors, directions D, orders", "a derivative identity over all directions and points",
 ["src/optimizer/cp_simple_optimizer.cxx:step","common.cxx:gradsubprob"])
p("cholesky_solve and SVD_solve solve the normal equations",
 "Given a Cholesky factor L L^T = S (resp. an SVD with nonzero singular values) the two triangular solves leave W with W S = M.",
 "all matrices for which the factorization exists", "all real matrices",
 ["common.cxx:cholesky_solve","common.cxx:SVD_solve"])
p("ALS never increases the objective",
 "With exact normal-equation solves, the squared residual ||V-[[W]]||^2 (lambda = 0) after any number of Simple, DT or MSDT steps is never larger than before; every single mode update is a global minimiser over that mode.",
 "all inputs, every number of steps, all orders", "unbounded iteration count and all real inputs",
 ["src/CP.cxx:als","src/optimizer/*:step"])
p("Rank-R update solves the normal equations when the factorization is exact and is optimal otherwise",
 "get_rankR_update_cholesky returns U,s,VT with (A+U s VT) gamma = M when the (truncated) SVD is exact, and otherwise the residual weighted by L^{-T} equals the SVD truncation error.",
 "all matrices", "all real matrices", ["common.cxx:get_rankR_update_cholesky"])
p("build_V reconstructs the CP model",
 "build_V(V,W,order) yields V[idx] = sum_r prod_j W_j[idx_j,r] for orders 2..18; for larger orders the label table is exhausted.",
 "every order, sizes, factor values", "identity over every order and value", ["common.cxx:build_V"])
p("The reported residual is the residual",
 "The [residual]/[diffV] value computed by CPD::als (and alsCP_DT) is the Frobenius norm of V minus the CP reconstruction of the current factors.",
 "every input", "all values", ["src/CP.cxx:als"])
p("Normalize preserves the model and balances the factors",
 "When every factor has nonzero norm, Normalize leaves the reconstructed tensor unchanged and afterwards all factors have the same Frobenius norm.",
 "every number of modes and all nonzero factors", "identity over reals with N-th roots", ["common.cxx:Normalize"])
p("als terminates and honours maxsweep",
 "CPD::als stops after at most the number of optimizer steps implied by maxsweep for every optimizer (Simple: maxsweep+1, DT/DTLR: 2(maxsweep+1), MSDT/MSDTLR: ceil((maxsweep+1)N/(N-1))), whatever the gradient norms and clock are.",
 "every maxsweep, resprint>0, gradient history, clock history", "every schedule of clock and gradient values",
 ["src/CP.cxx:als"])
p("als returns false exactly when the sweep limit stopped it",
 "The boolean result is false iff the loop ended by exhausting maxsweep. True for Simple and DT; the code VIOLATES it for MSDT whenever (N-1) does not divide maxsweep+1.",
 "every maxsweep, order, run history", "needs all maxsweep/order combinations", ["src/CP.cxx:als","src/optimizer/cp_msdt_optimizer.cxx:step"])
p("Early stop only on tolerance or time, at a checked iteration",
 "als leaves the loop before the sweep limit only at an iteration where the gradient norm was just recomputed and was < tol, or the clock had passed the limit; and at every checked iteration with gradnorm < tol it does stop.",
 "every history of gradient norms and clocks", "all histories", ["src/CP.cxx:als"])
p("resprint = 0 is rejected",
 "A user-supplied -resprint 0 is handled. The code VIOLATES this: the clamp keeps 0 and als evaluates iters % 0.",
 "every run with resprint 0", "the failing input passes the option clamp and fails at any size", ["run.cxx:main","src/CP.cxx:als"])
p("Legacy dimension tree is a binary partition tree",
 "Construct_Dimension_Tree(0,N-1) records for every node except the root a parent and a sibling such that parent = node and sibling concatenated in order, both nonempty, and every single mode is a node.",
 "every N >= 2", "recursive structure for every N", ["common.cxx:Construct_Dimension_Tree"])
p("Legacy dimension-tree MTTKRP is exact",
 "mttkrp_map_DT plus the leaf contraction of alsCP_DT yields the exact MTTKRP for every mode, for every order 4..31 except 5, and every mix of mode lengths.",
 "every such order, sizes, values, modes", "all orders and sizes", ["common.cxx:mttkrp_map_DT","als_CP.cxx:alsCP_DT"])
p("Legacy dimension tree handles order 5 (and 3)",
 "alsCP_DT / alsTucker_DT documented for order >= 4 work at order 5. The code VIOLATES this: node 'ab' of length N/2 is mistaken for a child of the root; at order 3 the recursion does not terminate.",
 "all inputs of order 5 and 3", "the failing order is an isolated point of an infinite family", ["common.cxx:mttkrp_map_DT","als_Tucker.cxx:ttmc_map_DT"])
p("alsCP_DT sweep is the plain ALS sweep",
 "One sweep of alsCP_DT (tree with cached intermediates, cleared once per sweep) updates the factors exactly as the Gauss-Seidel sweep using direct MTTKRPs.",
 "every order >= 6 or 4, sizes, inputs, solver", "cache staleness across all update positions", ["als_CP.cxx:alsCP_DT","als_CP.cxx:alsCP_DT_sub"])
p("PP operators are exact partial contractions",
 "Build_mttkrp_map on the key that omits mode i (resp. modes i<j) stores the MTTKRP of mode i (resp. the pairwise operator) of the factors in force; orders 3..9. Outside that range the 8-byte key buffer overflows.",
 "every order, sizes, key, prior map content", "all orders and map states", ["als_CP.cxx:Build_mttkrp_map,stringbuilder_mttkrp"])
p("PP approximates the MTTKRP to first order",
 "The matrix M used by alsCP_PP_sub equals the exact MTTKRP at W_init+dW up to terms with at least two dW factors; it is exact when at most one dW_j (j != i) is nonzero.",
 "all orders, inputs, perturbations", "multilinear identity over all perturbations", ["als_CP.cxx:alsCP_PP_sub"])
p("Damped update keeps W = W_init + dW",
 "After SVD_solve_mod, W = W_init + dW and dW = ratio_step * (exact solution - W_init), for every ratio_step (including 1).",
 "all matrices and ratio_step", "all values", ["common.cxx:SVD_solve_mod"])
p("PP phase keeps W = W_init + dW across iterations",
 "At the start of every PP iteration dW is the displacement of W from W_init. The code VIOLATES this: Normalize rescales W but not dW.",
 "every PP phase of two or more iterations", "depends on the iteration history", ["als_CP.cxx:alsCP_PP_sub"])
p("PP driver terminates when time does not run out",
 "alsCP_PP terminates with iter <= maxiter+1 if the clock never passes timelimit; each PP phase performs at most 15 sweeps; the loop counter strictly increases between restarts.",
 "every gradient/perturbation history, maxiter, resprint > 0", "all histories of restarts", ["als_CP.cxx:alsCP_PP,alsCP_DT_sub,alsCP_PP_sub"])
p("PP driver honours timelimit",
 "alsCP_PP returns once the time limit has passed. The code VIOLATES this: after the limit both phases break immediately without advancing iter while the outer loop only tests gradnorm and iter, so it spins forever.",
 "every run whose gradient norm stays above tol when time runs out", "non-termination cannot be observed by a finite test", ["als_CP.cxx:alsCP_PP","als_Tucker.cxx:alsTucker_PP"])
p("Partial-update PP touches exactly floor(N*p) distinct modes per sweep, highest perturbation first",
 "Each sweep of alsCP_PP_partupdate_sub updates update_size = floor(N*p) distinct modes and no mode left out has a larger relative perturbation than one updated.",
 "every perturbation vector, N, p in [0,1]", "all vectors, ties included", ["als_CP.cxx:sort_indexes,alsCP_PP_partupdate_sub"])
p("TTMc is the multi-mode product",
 "TTMc(Y,V,W,i) yields Y = V contracted with W_j in every mode j != i (i=-1: all), orders 1..10; from order 11 on the label 'k' collides.",
 "every order, sizes, ranks, values", "all orders and values", ["als_Tucker.cxx:TTMc"])
p("HOSVD core agrees with TTMc",
 "get_core_tensor computes the same tensor as TTMc with i=-1.", "every order <= 10, sizes, values", "all orders", ["als_Tucker.cxx:get_core_tensor,hosvd"])
p("Tucker dimension tree and core are exact",
 "ttmc_map_DT plus the leaf contraction yields the TTMc of the current factors for orders 4..31 except 5, and the core stored at the end of a sweep of alsTucker_DT is V contracted with all updated factors.",
 "every order, sizes, values", "cache staleness over all positions", ["als_Tucker.cxx:ttmc_map_DT,alsTucker_DT"])
p("Tucker PP approximates TTMc to first order",
 "Y in alsTucker_PP_sub equals the exact TTMc at W_init+dW up to terms with at least two dW factors; Build_ttmc_map operators are exact for orders 3..9.",
 "all orders, inputs, perturbations", "multilinear identity", ["als_Tucker.cxx:alsTucker_PP_sub,Build_ttmc_map"])
p("Sign alignment makes factors comparable",
 "After the sign fix each column of W_i has nonnegative inner product with the corresponding column of the reference factor, and columns change only by sign; the norm_U < 0 branch is dead.",
 "all matrices", "all real matrices", ["als_Tucker.cxx:alsTucker_DT_sub"])
p("HOOI never decreases the core norm",
 "If the SVD oracle returns a trace-maximising orthonormal basis, the squared norm of the core after each mode update of the Tucker sweep does not decrease.",
 "all inputs and any number of updates", "all inputs, unbounded iteration", ["als_Tucker.cxx:alsTucker"])
p("Identity and Laplacian generators",
 "identitiy_tensor(2d) is the product of Kronecker deltas and laplacian_tensor(2d), d>=2, is sum_k D_(k) x I with D = tridiag(-1,2,-1).",
 "every d >= 2 and s >= 1 and every entry", "all sizes and entries", ["common.cxx:identitiy_tensor,laplacian_tensor"])
p("fold_unfold reshapes without losing or moving data",
 "Folding V0[i1,j1,i2,j2,..] (length s each) into V of half the order maps it to V[i1+s*j1, i2+s*j2, ..]; folding back is the identity.",
 "every s, order, entry", "all sizes", ["common.cxx:fold_unfold","run.cxx:main"])
p("unit_tensor writes a Latin-square pattern",
 "unit_tensor writes s*s distinct positions; for every pair of two coordinates there is exactly one third coordinate set to one.",
 "every s >= 1", "all sizes", ["common.cxx:unit_tensor"])
p("Gram_Schmidt orthogonalises",
 "After Gram_Schmidt(A,B) with B nonzero, A is orthogonal to B and changed only by a multiple of B.",
 "all vectors", "all values", ["common.cxx:Gram_Schmidt"])
p("Gen_collinearity respects the requested window",
 "If the generator returns, every pair of vectors of a mode has collinearity in [col_min,col_max]; if col_min > col_max and R >= 2 it never returns.",
 "every random stream, R, dim, window", "all random streams; non-termination", ["common.cxx:Gen_collinearity"])
p("Command-line option lookup and clamps",
 "getCmdOption returns the token following the first occurrence of the option and null if it is absent or last; after parsing, values are inside their documented range.",
 "every argument vector", "all argument vectors", ["run.cxx:getCmdOption,main"])
p("Ownership: one Init is safe, a second Init is not",
 "Construct, Init once, destroy: factor and gradient arrays are freed exactly once and the tensor never. A second Init VIOLATES memory safety: Decomposition::Init and the optimizer both free the old tensor and factors.",
 "every sequence of calls", "all call histories", ["src/decomposition.cxx:Init","src/CP.cxx:Init","src/optimizer/cp_als_optimizer.cxx:configure"])
p("All MPI ranks take the same branch",
 "All ranks perform the same sequence of collective operations if their clock comparisons agree; if one rank's clock passes the limit first, the ranks diverge (VIOLATED in general because the time test is rank-local).",
 "every assignment of clocks to ranks and steps", "every schedule of local clocks", ["src/CP.cxx:als"])
p("Tree keys are unambiguous",
 "vec2str is injective on mode lists with entries < 31 and never yields the same key for different nodes, and complement strings of stringbuilder_mttkrp list exactly the modes not in the key, whichever way the literal \"0\" comparison resolves.",
 "every mode list / key", "all keys", ["common.cxx:vec2str","als_CP.cxx:stringbuilder_mttkrp"])
p("Legacy ALS loops: iteration bound and result",
 "alsCP, alsCP_DT, alsTucker, alsTucker_DT perform at most maxiter+1 sweeps and return false iff maxiter+1 sweeps were done without meeting the stop test.",
 "every history of norms and clocks, maxiter >= 0", "all histories", ["als_CP.cxx:alsCP,alsCP_DT","als_Tucker.cxx:alsTucker,alsTucker_DT"])
p("The log of als is truthful",
 "The rows als writes are exactly the reached iterations that are multiples of resprint, the first, or at/past maxsweep, in order; each row's gradient norm and residual are those of the factors after exactly that many optimizer steps.",
 "every optimizer, order 3..18, shape, arguments, clock history", "all runs and checkpoints", ["src/CP.cxx:als"])
p("Partial-update PP: right-hand sides",
 "As long as the modes are visited cyclically in one fixed order (in particular throughout the first sweep of a phase), every right-hand side used by the partial-update variant is the first-order approximation for the displacements at that moment. In general it misses the contributions of the modes last updated before the mode's own last update; the re-sorting between sweeps makes this happen (VIOLATED in general).",
 "every order 3..9, shape, sequence of sweeps and sort result", "all histories of selections", ["als_CP.cxx:alsCP_PP_partupdate_sub"])
p("run: from the options to a running optimizer",
 "For every choice of options the tensor built by run satisfies the preconditions the decomposition object asserts, and -pp selects the optimizer. Holds for tensor kinds p2, c, r, r2; VIOLATED for the default kind p (folded to half the order, so a run without arguments aborts) and for the data sets o1, o2 (never accepted).",
 "every option vector", "all option combinations", ["run.cxx:main","src/decomposition.cxx:Init"])
p("Noise has the requested relative size",
 "For tensor kind c the noise added to the tensor has 2-norm exactly rationoise times the norm of the noise-free tensor.",
 "every tensor, noise tensor (nonzero) and ratio >= 0", "all random streams and shapes", ["run.cxx:main"])
p("Tucker drivers: the returned core belongs to the returned factors",
 "After alsTucker or alsTucker_DT with maxiter >= 0 the core tensor is the input multiplied by the transposes of the returned factor matrices. Holds for alsTucker_DT, and for alsTucker when it returns true; VIOLATED by alsTucker when it returns false: the core belongs to the factors before the last sweep.",
 "every order (2..10, resp. 4, 6..10), shape, ranks, SVD, clock, tol, maxiter >= 0", "all inputs and all runs", ["als_Tucker.cxx:alsTucker","als_Tucker.cxx:alsTucker_DT"])
p("Tucker PP driver: exit and termination",
 "If the clock stays within timelimit, alsTucker_PP returns within maxiter+3+m rounds, m the number of 10% reductions that bring tol_init to at most 1. On return the last recorded change of the core norm is at most tol or iter = maxiter+1; the result is true iff iter differs from maxiter+1, and then the change is at most tol; orthonormal factor matrices stay orthonormal; the core is the input multiplied by the transposed factors (outside bench mode unless the change equals tol exactly). VIOLATED expectation: once the time limit has passed with the change above tol, it never returns.",
 "orders 4, 6..9, every shape, ranks <= lengths, SVD, clock, tol < 10, maxiter >= 0, resprint != 0", "all inputs, clocks and runs", ["als_Tucker.cxx:alsTucker_PP","als_Tucker.cxx:alsTucker_DT_sub","als_Tucker.cxx:alsTucker_PP_sub"])
p("Pairwise perturbation is used only near the point where its operators were built",
 "Outside bench mode every PP sweep of alsCP_PP and alsTucker_PP is made with operators exactly those of W_init and with ||dW_j|| <= tol_init ||W_j|| for every mode j; in the Tucker driver moreover dW_j = W_j - W_init_j.",
 "orders 4, 6..9, every shape, solver, clock, tol_init >= 0, every run", "all runs and all schedules of the two phases", ["als_CP.cxx:alsCP_PP,alsCP_PP_sub","als_Tucker.cxx:alsTucker_PP,alsTucker_PP_sub"])
p("Partial-update PP driver",
 "alsCP_PP_partupdate with update_percentage in [0,1]: if the clock stays within timelimit it returns, or std::sort is called on values it is not defined for. On return the last gradient norm is at most tol or iter > maxiter, iter <= maxiter+1 (+1 in bench mode), at most 15 sweeps were made per set of operators, outside bench mode true is returned only if the gradient norm is at most tol; PP sweeps are made only near the point of the operators (as C55). VIOLATED expectations: it does not return after the time limit, and there are inputs for which the priorities contain NaN beside different numbers so that the sort is undefined.",
 "orders 4, 6..9, every shape, solver, sort, clock, update_percentage in [0,1]", "all inputs, clocks and runs", ["als_CP.cxx:alsCP_PP_partupdate,alsCP_PP_partupdate_sub,sort_indexes"])
p("test_ALS end to end",
 "For every command line of test_ALS whose floating-point options are finite and -resprint is not 0, main builds the tensor documented for the -tensor value (Laplacian, folded Laplacian, collinear with noise, random rank-R, random, data file) with the documented mode lengths, and the driver chosen by -model and -pp ends: -model CP -pp 0 with the factors after iter ALS sweeps, iter the first tested iteration where the stored gradient is below tol*||V|| or the time is up, and log lines with the true residual; -pp 1 and -pp 2 with a gradient norm at most tol*||V|| or iter = maxiter+1; -model Tucker with orthonormal factors, their core, and for -pp 0 an error not above that of HOSVD. VIOLATED expectations: orders 3 and 5 never work; -tensor r with -dim 20 or more is undefined behaviour; -resprint 0 is undefined behaviour; -pp 1/-pp 2 report success without doing anything when tol*||V|| >= 10; an odd -dim is undefined behaviour for -tensor p and silently gives another tensor for -tensor p2; -model Tucker -pp 2 does nothing.",
 "every command line, random stream, MPI rank count, data distribution, clock (within the limit for -pp 1, -pp 2), order 4, 6..9", "all option combinations and random inputs", ["test_ALS.cxx:main"])
p("Low-rank optimizers: every low-rank update is the best one, and DTLR never increases the objective",
 "With exact factorizations, the rank-q correction computed by the low-rank step (randomsvd off) minimises the regularised least-squares objective of that mode among all modifications of the base matrix by a matrix of rank at most q; with random SVD it never makes that objective larger than at the base matrix. Hence every step of the low-rank dimension-tree optimizer (full or low-rank), from any start, leaves the regularised objective no larger than before.",
 "every order 3..31, shape, tensor, factors, q with 1 <= q <= R and q <= every mode length, lambda > 0, every random sketch, every number of steps",
 "all inputs, all random sketches, all histories", ["common.cxx:get_rankR_update_svd,get_rankR_update_cholesky,randomized_svd","cp_dt_lr_optimizer.cxx:step"])
p("run.cxx end to end",
 "For every command line of run.cxx with finite floating-point options, -model C.., -pp <= 4, -resprint not 0, order 3..18 (-pp 4: 2..10) and -tensor p2, c, r, r2, main builds the documented tensor and als returns; the factors are those after iters steps of the optimizer numbered -pp (alternating dimension tree, cyclic multi-sweep, their low-rank variants, plain sweeps), regularisation 0, from the random start; iters is the first step at which a check finds the recorded gradient below tol*||V|| or the time is up, or the first past maxiter sweeps; the log has a line with the true residual per check. For -pp 0, 1, 4 the residuals never increase. With a model name not starting with C (-model Tucker), or -pp above 4, main builds the tensor, decomposes nothing and ends normally. VIOLATED expectations: -tensor p (the default), o1 and o2 abort for every -size; -lambda, -magni, -pp_res_tol, -update_percentage_pp, -tensorfile have no effect; -dim 2 is undefined behaviour except with -pp 4; -pp 4 aborts in its first step for -dim 11 to 18 when -rank differs from -size; -tensor r with -dim 20 or more is undefined behaviour.",
 "every command line, random stream, rank count, clock, solver, low-rank routine", "all option combinations, random inputs and clocks", ["run.cxx:main","src/CP.cxx:als"])
p("KhatriRaoProduct",
 "KhatriRaoProduct(H_T, W, index, lens_H) with one to ten indices returns in H_T the array whose entry [x_0,..,x_{m-1},r] is the product over t of W[index[t]][x_t, r], for any row counts, any choice and order of matrices. VIOLATED for more matrices: the labels of the tenth and eleventh index coincide, so the call aborts if the two lengths differ, and with eleven matrices of equal lengths every entry whose tenth and eleventh index differ is silently zero.",
 "1..10 matrices (violations: >= 11), all row counts, all ranks, all contents, all index arrays", "all shapes and contents", ["common.cxx:KhatriRaoProduct"])
p("apply_rankR_update",
 "If the cached tensor is the product of V with A along the given mode, then after apply_rankR_update(U, sigma, VT, A, V, cached, mode) it is the product of V with A + U diag(sigma) VT. VIOLATED expectation: A itself becomes U diag(sigma) VT only (the old A is dropped), so matrix and cache belong together afterwards exactly if V times the old A was zero; U is overwritten by U diag(sigma).",
 "all orders up to 29, all shapes, modes, ranks and contents", "all shapes and contents", ["common.cxx:apply_rankR_update"])
p("Gauss_Seidel",
 "Gauss_Seidel(A, F, Gamma, maxits) for a symmetric Gamma with nonzero diagonal performs exactly maxits Gauss-Seidel sweeps for A Gamma = F; for symmetric positive definite Gamma every sweep strictly decreases tr(A Gamma A^T) - 2 tr(A F^T) unless A already solves the system (then A does not change), and the results converge to the solution from every start.",
 "all sizes, all Gamma as stated, all F, all starts, all maxits, exact SVD", "all inputs, unboundedly many iterations, convergence is a statement about infinitely many runs", ["common.cxx:Gauss_Seidel"])
p("pp_bench, end to end",
 "For every command line of pp_bench accepted by its option parser with finite -tol and -timelimit and -resprint not 0: every option has its documented default and out-of-range values are replaced by it (-pp is read but unused). With -model CP, any tensor class it can build of order 4,6,7,8,9, and any clock, the program ends after maxiter dimension tree and maxiter PP repetitions; every repetition starts from the same random factors and is a prefix (0, 1 or 2 sweeps) of one and the same pair of sweeps, given exactly by the gradient norms and the clock; if no gradient norm falls below tol*||V|| and time suffices, all repetitions perform the same two sweeps with the same result. With -model Tucker and a tensor of order dim, all repetitions start from the same factors; a dimension tree repetition performs one or two sweeps, a PP repetition at most one PP sweep, and the core left belongs to the factors left. VIOLATED expectations: (a) grad_W is not restored, so once a repetition leaves a gradient below tol*||V|| all later ones, and all PP repetitions, time nothing; (b) the Tucker core is not restored, so the first repetition may do two sweeps and all later ones one; (c) with tol*||V|| >= 10 the PP repetitions do nothing; (d) -model Tucker with the default tensor (p) is undefined behaviour: the core is constructed with dim lengths from an array of dim/2; (e) the data-set classes o.. leave V default-constructed.",
 "all argument vectors, all orders as stated, all random numbers, all clocks, all kernels satisfying their contracts", "all command lines, all clocks, arbitrarily many repetitions", ["pp_bench.cxx:main","als_CP.cxx:alsCP_DT","als_CP.cxx:alsCP_PP","als_Tucker.cxx:alsTucker_DT","als_Tucker.cxx:alsTucker_PP"])
p("Legacy drivers on several MPI ranks",
 "alsCP, alsCP_DT, alsTucker, alsTucker_DT, alsCP_PP, alsCP_PP_partupdate and alsTucker_PP compare a rank-local clock with timelimit to decide collectively executed control flow. On any number of ranks the outcome is determined by the data and the clocks: if in every logged test that the measured quantity does not decide by itself all ranks get the same answer from their clocks, every rank ends with the same iteration number, log and returned value and the data of the run on one rank (or all fail or loop together); if two ranks get different answers in such a test, they call different collective operations (deadlock or corrupted data). In bench mode of the PP drivers only rank 0 resets its start time, so even with perfectly synchronised clocks the ranks part in the first test when the time since the start exceeds timelimit and the time since the reset does not. (The expectation that a timeout stops all ranks together is VIOLATED.)",
 "all numbers of ranks, all clock histories of every rank, all data, all maxiter, resprint, tol", "all interleavings of rank-local clocks and unbounded runs", ["als_CP.cxx:alsCP","als_CP.cxx:alsCP_DT","als_CP.cxx:alsCP_DT_sub","als_CP.cxx:alsCP_PP_sub","als_CP.cxx:alsCP_PP_partupdate_sub","als_CP.cxx:alsCP_PP","als_Tucker.cxx:alsTucker","als_Tucker.cxx:alsTucker_DT","als_Tucker.cxx:alsTucker_DT_sub","als_Tucker.cxx:alsTucker_PP_sub","als_Tucker.cxx:alsTucker_PP"])
p("Regularised ALS converges",
 "With lambda > 0 (and an exact solver) alternating least squares converges to stationarity: every factor update decreases the regularised squared error by at least a fixed multiple of the squared gradient seen in that update, the multiple depending only on the tensor, lambda, R and the start; all factors stay bounded, gradients and factor changes tend to zero, every limit point of the factors is a stationary point of the regularised error, and the regularised error converges. Hence als() of the DT, MSDT and simple optimizers with any tol > 0 returns true (stopped by tolerance) after a number of logged tests bounded by an explicit number computed from the input, if maxsweep and timelimit allow. For alsCP_DT, which also rescales all factors to equal norm after each sweep, the rescaling never increases the regularised error, and the driver stops by tolerance likewise provided the starting factors have a smaller regularised error than the zero factors.",
 "all orders and shapes the optimizers accept, all tensors, all starts, all lambda > 0, all tol > 0, all exact solvers, all resprint > 0", "convergence is a statement about infinitely long runs on all inputs", ["src/CP.cxx:als","src/CPDTOptimizer.cxx:step","src/CPMSDTOptimizer.cxx:step","src/CPSimpleOptimizer.cxx:step","als_CP.cxx:alsCP_DT","common.cxx:Normalize"])
p("Tucker drivers converge",
 "alsTucker and alsTucker_DT stop by tolerance: for every tol > 0, every start and every core passed in, a call with maxiter at least 100*(||V||/tol + 2) (alsTucker) or resprint*(||V||/tol + 2) (alsTucker_DT) returns true within that many sweeps, and the core it leaves belongs to the factors it leaves. Continued for ever, the sweeps' core norms and errors converge, the factors have convergent subsequences, and every limit has orthonormal factors, attains the limit of the core norms and cannot be improved by replacing the first factor alone, nor the last factor alone, by other orthonormal columns.",
 "all orders and shapes as in C38/C48, all tensors and starts, all tol > 0, all clocks, exact leading singular vectors", "infinitely long runs on all inputs", ["als_Tucker.cxx:alsTucker","als_Tucker.cxx:alsTucker_DT"])
p("NaN and infinite values in the stop tests",
 "-tol nan, -timelimit nan and -timelimit inf pass the option checks, and factors can become NaN. With arbitrary IEEE doubles for tol, timelimit, clock readings and measured values: the loops of alsCP, alsCP_DT, alsTucker, alsTucker_DT and CPD::als return true early only if a measured value is smaller than tol (neither is NaN) or the limit was passed; once the measured value is NaN and stays so they run to the sweep limit and return false. A time limit that is NaN or inf is as no limit, and tol NaN is as tol 0, in run.cxx and in test_ALS -model CP -pp 0: with both, the run returns after more than maxiter sweeps. The PP drivers make at most maxiter+1 iterations, and return true only if the last measured value is not larger than tol. VIOLATED expectations: with tol NaN (or >= 10) the PP drivers compute nothing, leave the random start, write no log and return true; if the factors turn NaN in the pairwise perturbation phase, alsCP_PP and alsCP_PP_partupdate stop after 15 more sweeps, alsTucker_PP at maxiter, and return true (converged); in the dimension-tree phase they end after maxiter+1 iterations with false.",
 "all IEEE doubles (finite, NaN, infinite) as tol, timelimit, clock, measured values; all histories, maxiter, resprint", "all histories and all poisoned values", ["als_CP.cxx:alsCP","als_CP.cxx:alsCP_DT","als_CP.cxx:alsCP_PP","als_CP.cxx:alsCP_PP_partupdate","als_Tucker.cxx:alsTucker","als_Tucker.cxx:alsTucker_DT","als_Tucker.cxx:alsTucker_PP","src/CP.cxx:als","run.cxx:main","test_ALS.cxx:main"])
p("Rounding errors stay local",
 "With floating-point contractions (every addition and multiplication has relative error at most eps, in any order of evaluation, no over/underflow) and any solver, DT, MSDT and Simple optimizer steps and the updates of a sweep of alsCP_DT still succeed and perform ALS updates of the documented modes in order, where the MTTKRP, normal-equation matrix and gradient used in each update differ from the exact ones of the current factors, entry by entry, by at most (1+eps)^((B+1)k)-1 times the same expression of the absolute values; B bounds the edge lengths and the rank (B = b^2 for the legacy tree, whose leaves sum over two modes) and k is at most the order plus 2. The number of earlier steps does not enter: reuse of tree intermediates does not accumulate errors. build_V and the printed residual satisfy the analogous bounds.",
 "all orders and shapes the optimizers accept, all real tensors and factors, all lambda, all solvers, all numbers of steps, all eps >= 0 and all orders of evaluation", "all inputs and all evaluation orders (parallel reductions are not reproducible)", ["src/optimizer/cp_dt_optimizer.cxx:step","src/optimizer/cp_msdt_optimizer.cxx:step","src/optimizer/cp_simple_optimizer.cxx:step","src/optimizer/cp_als_optimizer.cxx:update_S","als_CP.cxx:alsCP_DT","common.cxx:build_V","common.cxx:KhatriRao_contract","common.cxx:mttkrp_map_DT"])
p("HOSVD and Tucker drivers are quasi-optimal",
 "hosvd returns orthonormal factors and their core such that the squared reconstruction error is at most N times (N the order) that of any core with any factor matrices of the same ranks, orthonormal or not. In particular a tensor that has a Tucker decomposition of these ranks is reconstructed exactly, and with ranks equal to the edge lengths every tensor is. The factors that alsTucker, alsTucker_DT and test_ALS -model Tucker -pp 0 return, started from hosvd, satisfy the same bound for every tolerance, time limit, iteration limit and clock.",
 "every tensor, every order (hosvd 1..18, alsTucker 2..10, alsTucker_DT 4, 6..10, test_ALS 4, 6..9), every shape, all ranks at most the lengths, every competitor, all stopping points", "the bound compares with every other decomposition, for all inputs", ["als_Tucker.cxx:hosvd","als_Tucker.cxx:alsTucker","als_Tucker.cxx:alsTucker_DT","test_ALS.cxx:main"])
p("Pairwise perturbation error is second order",
 "If every displacement is at most e_j times as large as the factor the operators were built from (Frobenius norms), the right-hand side that a CP PP phase uses for mode i differs from the exact MTTKRP at the displaced factors by at most ||V|| prod_{j!=i}||W_init,j|| (prod_{j!=i}(1+e_j) - 1 - sum_{j!=i} e_j), which is at most 2^(N-1) eps^2 times the norms if all e_j <= eps <= 1; the recorded gradient has the same error, and with lambda > 0 the new factor is within |ratio|/lambda times this bound of what exact ALS would choose (damped by ratio). For Tucker PP with orthonormal W_init the tensor used has error at most ||V|| (prod(1+||dW_j||) - 1 - sum ||dW_j||); and whenever alsTucker_PP starts a PP sweep (from an orthonormal start, outside bench mode), this holds at the current factors with ||dW_j|| <= tol_init sqrt(r_j).",
 "all tensors, factors, displacements, modes; orders 3..9 (driver 4, 6..9), all clocks and histories of the driver", "an error bound for all inputs and all PP sweeps of all runs", ["als_CP.cxx:alsCP_PP_sub","als_CP.cxx:Build_mttkrp_map","als_Tucker.cxx:alsTucker_PP_sub","als_Tucker.cxx:alsTucker_PP"])
p("als can be called again",
 "Every finite sequence of calls of als on one object, each with its own tolerance, time limit, sweep limit and clock, returns and leaves the object exactly as the total number of optimizer steps made by all calls leaves a fresh one: a run cut short by the time limit is resumed by the next call. If the gradient matrices an object stores have norm below tol, als makes no step, changes nothing, logs one row and returns true; so after a call that ended by its gradient test a second call with the same or a larger tol does nothing. With the plain, DT and DTLR optimizers two calls that run to their sweep limits m1 and m2 leave what one call with m1+m2+1 leaves, and log the same measurements when every step is logged. With MSDT and MSDTLR the two calls make up to one step more than the one call (order 3, m1=m2=0: 4 steps against 3); none more if N-1 divides m1+1. For alsCP_DT: a second call after one that converged does nothing, and two calls that return false are one with maxiter m1+m2+1.",
 "all optimizers and problems they handle, all sequences of calls, arguments and clocks, all histories before them; alsCP_DT for orders 4, 6..18", "quantifies over call histories", ["src/CP.cxx:CPD::als","src/CP.cxx:update_gradnorm","als_CP.cxx:alsCP_DT"])
p("Fixed points of ALS are the stationary points of its objective",
 "With the plain, DT and MSDT optimizers and a solver that is exact for positive definite systems: if the gradient of 1/2||V-[[W]]||^2 + lambda/2 sum||W_j||^2 with respect to every factor vanishes at the starting factors, and lambda > 0 or the normal-equation matrices are positive definite, no number of steps changes an entry of a factor, and als with tol > 0 and maxsweep >= 2|resprint| returns true after at most 2|resprint| steps with the factors it was given. Conversely, with lambda > 0, if two consecutive steps of any run leave the factors unchanged, all those gradients vanish there. The low-rank optimizers (lambda > 0, Cholesky kernel, 1 <= q <= R and every mode length, with or without randomisation) keep stationary points in the same way, and with exact decompositions a whole sweep of the low-rank dimension-tree optimizer leaves the factors unchanged only at a stationary point, although some of its updates have rank q only. With lambda = 0 and a solver exact for all solvable systems, factors that reproduce V keep reproducing it through any number of steps, every logged residual is zero, and als returns true after at most 2|resprint| steps; the same holds for alsCP_DT (F = 0, V not zero), which rescales the factors after each sweep, within |resprint| sweeps.",
 "all orders and shapes the optimizers handle (alsCP_DT: orders 4, 6..18), all stationary points, all numbers of steps, all clocks", "quantifies over all stationary points and unbounded runs", ["src/CP.cxx:CPD::als","src/optimizer/cp_simple_optimizer.cxx","src/optimizer/cp_dt_optimizer.cxx","src/optimizer/cp_msdt_optimizer.cxx","src/optimizer/cp_dt_lr_optimizer.cxx","src/optimizer/cp_msdt_lr_optimizer.cxx","als_CP.cxx:alsCP_DT","common.cxx:Normalize"])
p("ALS commutes with changes of coordinates",
 "Plain, DT and MSDT optimizers with lambda > 0 and exact solvers (not necessarily the same for both problems). Take two problems where the tensor and starting factors (and starting gradients) of the second are those of the first multiplied in every mode by a matrix with orthonormal columns (orthogonal or tall), with the columns of all factors reordered the same way and signs redistributed over the modes. After any number of steps the factors and stored gradients are still related in this way, residuals and gradient norms are equal, and als returns the same value after the same number of steps with the same log. So results do not depend on the numbering of the rank-one terms, on sign conventions, on the exact solver, or on an orthonormal change of basis, and a tensor with orthonormal Tucker factors can be decomposed through its core. With lambda = 0, scaling the tensor by c != 0 and the starting columns by d_j[r] with product c scales all later columns by the same d_j[r] and all residuals by |c|, as long as the normal-equation matrices stay positive definite.",
 "all orders and shapes the optimizers handle, all isometries, column permutations and sign patterns, all numbers of steps, all clocks and stop parameters", "quantifies over all pairs of related problems and unbounded runs", ["src/CP.cxx:CPD::als","src/optimizer/cp_simple_optimizer.cxx","src/optimizer/cp_dt_optimizer.cxx","src/optimizer/cp_msdt_optimizer.cxx","src/CP.cxx:CPD::update_gradnorm"])
p("The work and memory of a sweep",
 "Count an index expression by the products it adds up (the number of index tuples) and by the entries of its result. A sweep of the plain optimizer on modes of length s contracts the input tensor N times (N s^N R products); a DT sweep exactly twice, at all orders and shapes; MSDT N times per N-1 sweeps, from the first step on. If all modes have length at least 2, the other contractions of a DT sweep add up at most R(6 prod_{j!=N-1} d_j + 2 prod_{j!=N-2} d_j) products and those of N MSDT steps at most 6 R sum_i prod_{j!=i} d_j; Gram matrices and gradients cost R^2 sum_j d_j per updated mode; and the intermediates a step holds in its map have at most 4 R prod_{j!=left} d_j entries together, however many steps came before. Setting up a PP phase reads the input tensor exactly three times at every order and computes every operator once; a PP sweep never reads the input tensor: N(N-1) corrections with R sum_{i!=j} d_i d_j products.",
 "all orders the optimizers handle, all mode lengths and ranks, all tensors, factors and solvers, all numbers of steps", "a claim about counts of executed contractions for all orders and run lengths; tests see only results, which are the same without the caching", ["src/optimizer/cp_simple_optimizer.cxx","src/optimizer/cp_dt_optimizer.cxx","src/optimizer/cp_msdt_optimizer.cxx","common.cxx:mttkrp_map_DT","common.cxx:KhatriRao_contract","als_CP.cxx:Build_mttkrp_map","als_CP.cxx:alsCP_PP_sub"])
p("Low-rank optimizers with full update rank are the exact ones",
 "With a positive regularisation, kernels that meet their contracts and an update rank that does not truncate (q = min(s_j, R) for every mode, or q = R <= s_j with the randomised decomposition), 2p steps of the low-rank dimension-tree optimizer leave the factors and gradients of p ALS sweeps, which are those of 2p steps of the DT optimizer with any exact solver, although the low-rank optimizer splits its sweeps elsewhere and patches cached contractions with the low-rank difference. The low-rank multi-sweep optimizer agrees with MSDT after every single step, and als with it returns the same value after the same number of steps with the same log and the same factors. With an even log interval, als with the low-rank dimension-tree optimizer logs the same rows as with DT during the first maxsweep sweeps, and if one of the two stops there so does the other, with the same result, log and factors.",
 "all orders 3 to 31, all mode lengths and ranks, all tensors and starting factors, all kernels meeting their contracts, all exact solvers, all numbers of steps and stopping parameters", "two different algorithms with different caches must agree after every number of steps for every input; tests compare a few runs up to a tolerance", ["src/optimizer/cp_dt_lr_optimizer.cxx","src/optimizer/cp_msdt_lr_optimizer.cxx","common.cxx:get_rankR_update_cholesky","common.cxx:randomized_svd"])
p("Tucker results do not depend on the SVD used",
 "A singular value decomposition is not unique: singular vectors may change sign, and bases of a subspace may be rotated. If, along the run of HOOI on subspaces started at the span of the starting factors, the leading eigenvalues of each Gram matrix exceed the ones left out, then with every SVD routine that returns leading singular vectors alsTucker, alsTucker_DT, the exact phase of the PP driver and hosvd produce bases of the same subspaces. The reconstruction, the core norm and the error after every sweep are the same; two whole calls with different SVDs and the same clock make the same number of sweeps, return the same value and print the same lines.",
 "all orders (2 to 10 direct, 4 and 6 to 18 with the tree), all mode lengths and core ranks, all tensors and starts whose run has eigenvalue gaps, every SVD returning leading singular vectors, all numbers of sweeps, tolerances, clocks", "it quantifies over all admissible SVD implementations, which a test cannot swap, and over runs of any length", ["als_Tucker.cxx:alsTucker","als_Tucker.cxx:alsTucker_DT","als_Tucker.cxx:alsTucker_DT_sub","als_Tucker.cxx:hosvd"])
p("Tucker drivers commute with orthogonal changes of coordinates and scaling",
 "If V' is V multiplied by an orthogonal matrix Q_j in every mode (for example, the entries of a mode are permuted or change sign) and by a number c != 0, and the start is Q_j W_j, then, with eigenvalue gaps as in C76, after every sweep of alsTucker or alsTucker_DT and after hosvd the factors span the images under Q_j of the subspaces found for V; the approximation of V' is the approximation of V in the new coordinates, the core norm is scaled by |c| and the squared error by c^2. With the tolerance and the norm of the core passed in scaled by |c|, the drivers make the same number of sweeps and return the same value; alsTucker_DT prints the same lines with values scaled by |c|.",
 "all orders (2 to 10 direct, 4 and 6 to 18 with the tree), all mode lengths and core ranks, all tensors and starts whose run has eigenvalue gaps, all orthogonal matrices, all c != 0, any two SVDs returning leading singular vectors", "a relation between two unbounded runs on different data for all rotations; tests compare single runs", ["als_Tucker.cxx:alsTucker","als_Tucker.cxx:alsTucker_DT","als_Tucker.cxx:hosvd"])
p("A Decomposition object manages its tensors and factors",
 "An object of the base class Decomposition may be initialised any number of times, each time with a tensor and a factor array not passed before, printed and destroyed, without a memory error or failed assertion. Afterwards every factor array passed to Init and every tensor but the last has been freed, the last tensor is left to the caller, and the object has left nothing behind. Passing one factor array to Init twice in the life of an object never ends well, whatever is called in between and afterwards.",
 "all histories of Init, print_V, print_W and destruction, of any length, all orders, sizes, ranks, all heaps", "a property of all call histories; double frees do not show in the results of a test", ["src/decomposition.cxx:Decomposition","src/decomposition.cxx:Init","src/decomposition.cxx:print_V","src/decomposition.cxx:print_W","src/decomposition.cxx:~Decomposition"])
p("A session with CPD: construct, Init, als",
 "For a tensor with n modes of length s and matching factors, constructing CPD with any of the five optimizers, Init(V, W, lambda) and als(tol, timelimit, maxsweep, resprint) complete: the factors are those of the optimizer's specified steps from the caller's factors; als stops at the first check (every resprint steps and in the last sweep) that finds the norm of the recorded gradients below tol or the time over, else after maxsweep + 1 sweeps; each check is logged with the true residual. In particular tests/test_decomposition.cxx completes for all random numbers: it makes 62 steps (31 ALS sweeps) unless the check before step 0, 60 or 61 stops it, and it stops at step 0 iff the random numbers Init writes into the gradients have norm below 1e-5 or the time is up.",
 "all orders 3 to 18 (plain optimizer up to 10), all s, R, lambda, tolerances, limits, resprint != 0, tensors, factors, random numbers, clocks, solvers, low-rank routines", "the repository's only unit test asserts two constants; what it computes depends on random data of 4.8 million entries", ["src/CP.cxx:CPD","src/CP.cxx:Init","src/CP.cxx:als","tests/test_decomposition.cxx:TEST_CPD"])
p("Rounding errors of the Tucker computations stay local",
 "When every contraction and every entrywise combination is evaluated in floating-point arithmetic with relative error eps per operation, in any order of summation: TTMc, hosvd, the core, the sweeps of alsTucker and alsTucker_DT, the residual printed, and the operators and right-hand sides of alsTucker_PP are entrywise within ((1+eps)^n - 1) times the same expression in the absolute values, with an explicit n that depends only on the order and the largest length, not on the sweep. With an SVD that is backward stable with relative error eta, all factors stay orthonormal and no sweep, in any number of sweeps, increases the squared error by more than a bound proportional to the errors, independent of the factors, which is zero for eps = eta = 0.",
 "all orders (2 to 10 direct, 4 and 6 to 18 with the tree, 3 to 9 for pairwise perturbation), all sizes and ranks, tensors, factors, evaluation orders, eps, eta, numbers of sweeps", "statements about all roundings; a test sees one rounding on one machine", ["als_Tucker.cxx:TTMc","als_Tucker.cxx:hosvd","als_Tucker.cxx:alsTucker","als_Tucker.cxx:alsTucker_DT","als_Tucker.cxx:alsTucker_PP_sub"])
p("Regularised ALS in floating-point arithmetic",
 "With lambda > 0, contractions evaluated in floating-point arithmetic (relative error eps per operation, any order of summation) and a backward stable solver (relative error eta) that reads one triangle of the matrix: as long as an explicit condition on the precision holds, no sweep of the plain, DT or MSDT optimizer increases the exact objective at the computed factors by more than an explicit constant times the square of the relative errors, the objective stays below an explicit bound, and among m sweeps there is one whose recorded gradients have a squared norm of at most constant/m plus the rounding errors. For every problem, number of sweeps and delta > 0 there is a precision that suffices for losing at most delta per sweep; with eps = eta = 0 nothing is lost.",
 "all orders (2 to 10 plain with equal lengths, 3 to 31 DT and MSDT), sizes, ranks, tensors, starts, lambda > 0, evaluation orders, eps, eta, numbers of sweeps, solvers", "statements about all roundings and arbitrarily many sweeps; a test sees one rounding on one machine", ["src/optimizer/cp_simple_optimizer.cxx:step","src/optimizer/cp_dt_optimizer.cxx:step","src/optimizer/cp_msdt_optimizer.cxx:step","src/optimizer/cp_als_optimizer.cxx:update_S"])
p("Pairwise perturbation for CP in floating-point arithmetic",
 "With contractions evaluated in floating-point arithmetic (relative error eps per operation, any order of summation): the operators of a pairwise-perturbation phase of alsCP_PP are built and every entry is within (1+eps)^((B+1)k)-1, k the number of contractions, of the exact operator, relative to the operator of the absolute values; for any displacements the right-hand side of each mode is that close to the exact first-order expression (k = 2(N-1)); the updates of a sweep (ratio_step 1, any solver) use such right-hand sides at the displacements of that moment and record each new displacement with one rounding; and the first sweep of a phase, which starts at the reference factors with zero displacements, consists of ALS updates at the current factors whose right-hand sides differ from the exact MTTKRP by at most rounding errors plus the neglected terms with two or more displacements.",
 "orders 3 to 9, all edge lengths and ranks at most B, tensors, factors, displacements, evaluation orders, eps, solvers", "statements about all roundings; a test sees one rounding on one machine", ["als_CP.cxx:Build_mttkrp_map","als_CP.cxx:alsCP_PP_sub","common.cxx:SVD_solve_mod"])
p("Pairwise-perturbation sweeps are monotone up to the perturbation error",
 "CP, lambda > 0, damping 0 <= ratio_step <= 1: a pairwise-perturbation update of mode i at factors W = W_init + dW with |dW_j| <= e_j |W_init,j| increases the regularised objective by at most B_i^2/lambda over the best possible choice of that factor (ratio_step 1), B_i = |V| prod |W_init,j| (prod(1+e_j)-1-sum e_j), a fourth-order amount; the first sweep of every phase increases it by at most ratio_step * sum_i B_i^2/lambda, e_j measuring the displacements it ends with, and Normalize adds nothing. Tucker: an update with displacements of norm d_j leaves the norm of the exact core at most 2|V|(prod(1+d_j)-1-sum d_j) below the best orthonormal choice of that factor; a sweep, and any number of sweeps of a phase, lose at most the sum of these amounts, so the fit decreases by at most second-order amounts while the displacements stay within the guard.",
 "orders 3 to 9, all dimensions, ranks, tensors, factors, displacements, kernels satisfying their contract, numbers of sweeps", "a bound on the loss for every input; a test observes a single run, in which the loss need not occur", ["als_CP.cxx:alsCP_PP_sub","als_Tucker.cxx:alsTucker_PP_sub","common.cxx:SVD_solve_mod","common.cxx:Normalize"])
p("HOSVD and the Tucker drivers are quasi-optimal in floating-point arithmetic",
 "With contractions evaluated in floating-point arithmetic (relative error eps per operation, any order of summation) and a backward-stable SVD (relative error eta): hosvd returns factors with orthonormal columns whose squared error is at most N times that of any Tucker approximation with the same ranks, plus 4((1+u)(1+eta)-1)(sum of the edge lengths)|V|^2, u the relative error of one Gram entry; and after any number n of sweeps of alsTucker or alsTucker_DT from these factors the same holds with n times the loss of a sweep (C80) added.",
 "orders 1 to 18 (direct sweeps 2 to 10, tree sweeps 4 and 6 to 18), all edge lengths, ranks, tensors, evaluation orders, eps, eta, numbers of sweeps", "compares with all approximations of the given ranks, for all roundings", ["als_Tucker.cxx:hosvd","als_Tucker.cxx:alsTucker","als_Tucker.cxx:alsTucker_DT","common.cxx:unroll_tensor_contraction"])
p("CPD::als stops by its tolerance in floating-point arithmetic too",
 "als(tol, timelimit, maxsweep, resprint) with the plain, DT or MSDT optimizer, lam > 0, contractions evaluated in floating-point arithmetic in any order, a backward-stable solver, and a stop test whose gradient norm is itself computed with rounded operations and norms: the computed gradient norm is within the relative error of its operations of the norm of the stored gradients; if the tolerance exceeds the stated level (a term of order 1/m plus the rounding errors) and maxsweep allows for m groups of |resprint| units, als returns true after at most that many steps with a computed gradient norm below tol; and for every problem, start, tol > 0 and resprint there are a number of steps and a precision from which on this is so.",
 "all tensors, starts, edge lengths, ranks, lam > 0, tolerances, resprint, evaluation orders, rounding functions and solvers within the stated precision, clocks that do not exceed the time limit; orders 3 to 18 (plain optimizer: to 10, equal lengths)", "termination of a loop for all inputs and all rounding behaviours", ["src/CP.cxx:CPD::als","src/CP.cxx:CPD::update_gradnorm","src/optimizer/cp_dt_optimizer.cxx:CPDTOptimizer::step","src/optimizer/cp_msdt_optimizer.cxx:CPMSDTOptimizer::step","src/optimizer/cp_simple_optimizer.cxx:CPSimpleOptimizer::step"])
p("The log file says what the drivers did",
 "Plot_File after a call without bench, on rank 0, with an open stream: what it held before, the heading, and one line per convergence test, in order, with dimension, sweep or iteration number, gradient norm, tolerance, a flag that is 1 exactly for tests of a pairwise perturbation phase, residual and time, an empty line after every positive multiple of 100 iterations; then the file is closed, so that a second call with the same stream computes as before but leaves no trace. Other ranks write nothing, except that alsTucker_DT writes its heading on every rank, which does not change the shared file whatever the order in which the ranks' writes arrive. With bench there are no headings or rows: CPD::als and alsCP_DT write the time of every test but the first, alsTucker_DT of every test, the PP drivers at most once a pair of times, and the file stays open; the file of pp_bench is its heading, the lines of the repetitions of the first benchmark, an empty line, those of the second and an empty line.",
 "all arguments including IEEE special values, tensors, starts, clocks, measured times, contents of the file so far, numbers of repetitions; all orders in which the writes of several ranks reach the file", "all histories of the loops and all interleavings of the ranks", ["src/CP.cxx:CPD::als","als_CP.cxx:alsCP_DT","als_CP.cxx:alsCP_PP","als_CP.cxx:alsCP_PP_partupdate","als_Tucker.cxx:alsTucker_DT","als_Tucker.cxx:alsTucker_PP","pp_bench.cxx:main"])
p("Work of the legacy dimension trees",
 "Counting the contractions as the index expressions are written: for order 4 and 6 to 31 every sweep of alsCP_DT contracts the input tensor exactly twice, with R times the product of the edge lengths products each time, so 4 R s^N + O(R s^(N/2)) in all for equal edge lengths, against N R s^N without tree; the Gram matrices cost exactly N times R squared times the sum of the edge lengths. A sweep of alsTucker_DT (order 4 and 6 to 18) contracts the input tensor exactly twice, of alsTucker exactly N times; the numbers of products with the input tensor, for the Gram matrices and for the core are exact closed forms, those of the intermediate products exact without tree and bounded with it. Counting does not change the results.",
 "all edge lengths, ranks (Tucker: at most the edge lengths), tensors, factors, solvers and SVD routines that return a matrix of the requested shape, numbers of sweeps", "all orders, shapes and histories of the cache", ["als_CP.cxx:alsCP_DT","common.cxx:mttkrp_map_DT","common.cxx:Construct_Dimension_Tree","als_Tucker.cxx:alsTucker","als_Tucker.cxx:alsTucker_DT","als_Tucker.cxx:ttmc_map_DT","als_Tucker.cxx:TTMc","common.cxx:unroll_tensor_contraction"])
p("The sweep counter of CPD::als is a double",
 "CPD::als adds the fractions of a sweep its steps report to a double. For the plain, DT and low-rank DT optimizers, and for the multi-sweep optimizers if the order is a power of two, every value of the counter is exact: als makes the same steps, prints the same log and gives the same answer as with an exact counter. For the multi-sweep optimizers at any order the counter stays within 1/100 of the number of sweeps made; als makes at most one step more than with an exact counter, and this only if order-1 divides maxsweep+1; it stops before the limit only by tolerance or time; the answer false still means that the limit was reached. Violated otherwise: at order 3 with maxsweep 3 the counter holds 3.9999999999999996 after six steps (four sweeps), so als makes a seventh step and answers true.",
 "all tensors, factors, ranks, solvers, numbers of earlier steps, orders 3 to 18, sweep limits (below 2^31 where exact, below 2^20 for the bound), clocks, and all ways of breaking ties when rounding to nearest", "the rounding errors of the counter depend on the number of steps, the order and the tie rule", ["src/CP.cxx:CPD::als","src/optimizer/cp_msdt_optimizer.cxx:step","src/optimizer/cp_msdt_lr_optimizer.cxx:step","src/optimizer/cp_dt_optimizer.cxx:step","src/optimizer/cp_dt_lr_optimizer.cxx:step","src/optimizer/cp_simple_optimizer.cxx:step"])
p("The legacy CP drivers commute with changes of coordinates",
 "Let two problems differ by a change of coordinates: tensor and starting factors (and the gradients passed in) of the second are those of the first multiplied in every mode by a matrix with orthonormal columns (square or tall), the columns of all factors reordered in the same way, signs changed consistently. With regularisation, alsCP_DT, alsCP_PP and alsCP_PP_partupdate behave the same on both: the same sweeps and phases, the same decisions to enter or leave the perturbation regime, the same selection of modes in partial updates, the same log, number of iterations, gradient norm and returned value, and factors that are still related by the change of coordinates; in particular the result does not depend on which correct SVD or Cholesky routine is used. If one run fails (undefined sort of NaN priorities, livelock), so does the other, in the same way.",
 "all tensors, shapes, ranks, starting factors, orthonormal matrices, column permutations, signs, regularisations > 0, damping factors, thresholds, update percentages, tolerances, limits, clocks, correct dense kernels; orders 4 and 6 to 18 (alsCP_DT), 4 and 6 to 9 (PP)", "quantifies over pairs of runs on all orthonormally related problems", ["als_CP.cxx:alsCP_DT","als_CP.cxx:alsCP_PP","als_CP.cxx:alsCP_DT_sub","als_CP.cxx:alsCP_PP_sub","als_CP.cxx:alsCP_PP_partupdate","als_CP.cxx:alsCP_PP_partupdate_sub","common.cxx:Normalize","common.cxx:SVD_solve_mod"])
p("The choice of algorithm does not change the result",
 "Programs that differ only in how they organise the contractions give the same answer. CPD::als with CPSimpleOptimizer, CPDTOptimizer or CPMSDTOptimizer, started from the same factors with test intervals covering the same number of sweeps, the same tolerance and sweep limit and a time limit that expires at the same tests: if one stops at a test within the sweep limit, the others stop there too, after the same number of sweeps, returning the same value, writing the same log rows and leaving the same factors and gradients; if they use up their sweeps they return false with the same factors. alsCP and alsCP_DT (unregularised, equal mode lengths), and alsTucker and alsTucker_DT, leave the same factors after the same number of sweeps. Normalize after each sweep of alsCP_DT changes no sweep: without regularisation the factors stay multiples, with product 1, of those of plain ALS with any exact solver, and represent the same tensor.",
 "all tensors, shapes, ranks, starting factors, regularisations, solvers, tolerances, limits, intervals, clocks, numbers of sweeps; the orders each algorithm accepts", "compares whole executions of different algorithms on all inputs", ["src/CP.cxx:CPD::als","src/optimizer/cp_simple_optimizer.cxx:step","src/optimizer/cp_dt_optimizer.cxx:step","src/optimizer/cp_msdt_optimizer.cxx:step","als_CP.cxx:alsCP","als_CP.cxx:alsCP_DT","als_Tucker.cxx:alsTucker","als_Tucker.cxx:alsTucker_DT","common.cxx:Normalize"])
p("Pairwise perturbation can be switched off","As long as alsCP_PP (or alsCP_PP_partupdate) has made no PP sweep, its factors and gradients are those after as many sweeps of alsCP_DT as it has made with the dimension tree: setting up operators, tests and restarts change nothing (any tolerances, clock, bench). With a restart tolerance <= 0 no PP sweep is ever made: both drivers make the same number of iterations as alsCP_DT called with the same arguments, leave the same factors and gradients, return the same value and write the same lines to the log (up to one repeated test at the end). The same holds for alsTucker_PP and alsTucker_DT with any SVDs, factors being compared by the subspaces they span, when every leading eigenvalue in the run exceeds the first one left out. And, with any tolerances, clock and bench, as long as alsTucker_PP has made no PP sweep its factors span the subspaces after as many sweeps of HOOI as it has made with the dimension tree.","orders 4 and 6..9, all edge lengths, ranks, tensors, start factors, regularisation, SVD kernels, tolerances, clocks, numbers of iterations; update percentages and sorting routines for the partial-update driver","every history of tests, restarts and sweeps",["als_CP.cxx:alsCP_PP","als_CP.cxx:alsCP_PP_partupdate","als_CP.cxx:alsCP_DT_sub","als_CP.cxx:alsCP_PP_sub","als_CP.cxx:alsCP_DT","als_Tucker.cxx:alsTucker_PP","als_Tucker.cxx:alsTucker_DT"])
# refined wording: exact ranges; properties the code violates are stated as what the code does
def q(i,**kw):
    x=P[int(i[1:])-1]; assert x['id']==i; x.update(kw)
q('C14',statement="For positive definite gamma, get_rankR_update_cholesky and get_rankR_update_svd return U,s,VT such that A + U s VT minimises tr(Y gamma Y^T) - 2 tr(Y M^T) over all modifications Y = A + P Q of rank at most q (so both reach the same value), and (A + U s VT) gamma = M when nothing is truncated; with random SVD the value is not larger than at A.",
  quantifier="all matrices M, A, all positive definite gamma, all ranks q <= min(n,R), all random sketches", anchors=["common.cxx:get_rankR_update_cholesky,get_rankR_update_svd,randomized_svd"])
q('C54',statement=P[53]['statement']+" Outside bench mode tol_init has on return been multiplied by 0.9 exactly once per round as long as it exceeded 5e-3, and by nothing else.")
q('C02',title="Direct MTTKRP accepts only tensors with equal mode lengths",
  statement="For orders 3..10, KhatriRao_contract completes iff all modes have the same length; on any other shape (up to order 31) gradient_CP, alsCP (before any factor changes) and the Simple optimizer's step abort, because CTF rejects a contraction because intermediate shapes are shifted by one mode. (A user would expect every shape to work: the code VIOLATES that expectation.)",
  quantifier="every order 3..10, every tensor shape, every mode")
q('C03',title="Index labels of the direct MTTKRP collide from order 11 on",
  statement="The contraction labels used by KhatriRao_contract denote distinct modes up to order 10; for every order 11..31 the rank label 'k' equals the label of mode 10, so on tensors with equal mode lengths different from the rank the contraction is rejected instead of producing the MTTKRP, and gradient_CP, alsCP and the Simple optimizer's step abort. (The expectation that labels never collide is VIOLATED.)")
q('C05',quantifier="every order 3..31 (comparison with CPSimpleOptimizer: 3..10 and equal mode lengths, see C02), sizes, tensor, initial factors, solver, and number of sweeps")
q('C06',quantifier="every order 3..31, every number of steps, all inputs and solvers")
q('C07',quantifier="every order 3..31 and every number of steps")
q('C08',quantifier="every order 3..31, every history of steps, all inputs, every low-rank factorization returned")
q('C09',quantifier="every order 3..31, every history of steps, all inputs, every low-rank factorization returned")
q('C11',quantifier="all tensors, factors, directions D; orders 2..10 with equal lengths (Simple), 3..31 (DT, MSDT, DTLR, MSDTLR: every step of a run)")
q('C13',quantifier="all inputs, every number of steps; orders 2..10 with equal lengths (Simple), 3..31 (DT, MSDT)")
q('C15',quantifier="every order 2..18 and >= 20, sizes, factor values")
q('C16',quantifier="every order 2..18, shape, tensor, factors")
q('C19',title="als returns false exactly when the sweep limit stopped it, except for MSDT")
q('C21',title="resprint = 0 is not rejected",
  statement="A user-supplied -resprint 0 passes the option clamp, and with it every call of als that enters its loop evaluates iters % 0 (undefined behaviour, SIGFPE). (The expectation that 0 is rejected or handled is VIOLATED.)")
q('C22',quantifier="every N in 2..159")
q('C24',title="Legacy dimension tree fails at orders 5 and 3",
  statement="At order 5 the tree contraction of alsCP_DT fails for every input (node 'ab' of length N/2 is mistaken for a child of the root), a sweep of alsTucker_DT aborts unless the ranks of modes 3 and 4 equal their lengths, and at order 3 the recursion of neither terminates. (The documented expectation that order >= 4 works is VIOLATED.)")
q('C25',quantifier="every order 4, 6..31, sizes, inputs, solver")
q('C26',quantifier="every order 3..9 (exactness) and >= 10 (overflow), sizes, key, prior map content")
q('C27',quantifier="all orders 3..9, inputs, perturbations")
q('C29',title="PP phase keeps W = W_init + dW through the updates but not across Normalize",
  statement="Within a PP sweep every factor update keeps dW = W - W_init; the Normalize at the end of the sweep rescales W but not dW, so the relation is lost unless all factor norms were already equal. (The expectation that dW is the displacement at the start of every PP iteration is VIOLATED.)",
  quantifier="every order 3..9, every PP sweep, all inputs; a concrete two-iteration phase for the violation")
q('C30',quantifier="every order 4, 6..9, every gradient/perturbation history, maxiter, resprint > 0")
q('C31',title="PP driver does not honour timelimit",
  statement="Once the time limit has passed while the gradient norm is above tol and iter <= maxiter, alsCP_PP never returns: both phases break immediately without advancing iter while the outer loop only tests gradnorm and iter. (The expectation that it returns is VIOLATED.)",
  quantifier="every order 4, 6..9, every run whose gradient norm stays above tol when time runs out")
q('C32',quantifier="every order 3..9, perturbation vector, p in [0,1]")
q('C33',quantifier="every order 1..10 and >= 11 (collision), sizes, ranks, values")
q('C35',quantifier="orders 4, 6..31 (core at the end of the sweep: up to 18), sizes, values")
q('C36',quantifier="all orders 3..9, inputs, perturbations")
q('C38',quantifier="all inputs and any number of updates; orders 2..10 (direct), 4, 6..18 (tree)")
q('C39',quantifier="every d in 2..79, s >= 1 and every entry; order 2 and odd orders (where the tensor is another one) included as violations")
q('C47',quantifier="every mode list / key with modes < 159; at mode 159 (letter NUL) keys do collide")
q('C48',quantifier="every history of norms and clocks, maxiter >= 0; orders 2..10 (alsCP with equal lengths, alsTucker), 4, 6..18 (alsCP_DT), 4, 6..10 (alsTucker_DT)")
q('C87',statement="Counting the contractions as the index expressions are written: for order 4 and 6 to 31 every sweep of alsCP_DT contracts the input tensor exactly twice, with R times the product of the edge lengths products each time, so 4 R s^N + O(R s^(N/2)) in all for equal edge lengths, against N R s^N without tree; the Gram matrices cost exactly N times R squared times the sum of the edge lengths. A sweep of alsTucker_DT (order 4 and 6 to 18) contracts the input tensor exactly twice, of alsTucker exactly N times; the numbers of products with the input tensor, for the Gram matrices and for the core are exact closed forms, those of the intermediate products exact without tree and bounded with it. The intermediate tensors a sweep fills (cached or temporary) have together at most 1/d times as many entries as products are added up, d being the least edge length: 4 R s^(N-1) + O(R s^(N/2-1)) for alsCP_DT, 2 r s^(N-1) + lower order for alsTucker_DT. m sweeps count m times one sweep. Counting does not change the results.")
open('/verif/properties.jsonl','w').write(''.join(json.dumps(x)+"\n" for x in P))
print(len(P))
