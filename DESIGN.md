# Formal model of LinjianMa/pairwise-perturbation (C++/CTF) in Lean 4

## 1. Shape of the development

* `lean/Verif/Spec/*`   – small specifications (MTTKRP, CP reconstruction, Gram product, objective,
  multi-mode product, cyclic ALS) written with `Finset` sums over `Fin N → ℕ`; they do not
  mention any definition of the model.
* `lean/Verif/Model/*`  – the model, function by function, every definition citing file and lines.
* `lean/Verif/Proofs/*` – helper lemmas.
* `lean/Verif/Properties/*` – the property theorems (names start with the property id) and, beside
  each of them, `example`s showing that non-trivial instances meet the hypotheses.

## 2. Modelling decisions

* **Tensors.** A CTF tensor is a list of edge lengths plus a value for every multi-index
  (`List ℕ → K`), zero outside the box.  `double` is modelled by an exact commutative ring / field
  `K` (ordered where an order is used, `ℝ` where a square root is used); rounding is modelled
  only for C68, C80 - C82, C84, C85 (relative errors) and C88 (binary64), overflow not at all; NaN and infinities only in comparisons (section 4).
* **CTF index expressions** `C["sc"] = A["sa"] * B["sb"]`, are interpreted from the *label strings the
  C++ code builds*: CTF reads exactly `order` characters of each string, binds labels to indices, sums over
  labels that are not in the output, requires equal edge lengths for equal labels (otherwise
  the run aborts: outcome `abort`).  A string shorter than the order, an index outside an array, a
  missing map entry etc. is the distinct outcome `ub`.
* **Characters** are signed 8-bit codes, with wrap-around of `'a'+j` (x86 `char`).  Hence label collisions and
  undecodable labels are visible in the model.
* **External numerical kernels** (`svd`, `cholesky`, `solve_tri`, random fill) are parameters; each theorem
  states the relation it assumes about them (e.g. `L Lᵀ = S`, `L` triangular with nonzero diagonal).
* **Clock, gradient norms, random numbers** are arbitrary oracles (functions of the step number), universally
  quantified.
* **Loops** are structural recursion or fuel recursion; fuel exhaustion is a distinct outcome and theorems show
  that a given amount of fuel suffices, or (for livelocks) that none does.
* **Memory ownership** is a small heap automaton with alloc/free, double free a distinct outcome.
* **MPI** is modelled only as the sequence of collective calls each rank issues.

## 3. Plan per property

| id | modelled | proof |
|----|----------|-------|
| C01 | `KhatriRao_contract` with its strings and declared shapes | loop invariant: after j contractions the temporary is the partial MTTKRP |
| C02 | same | concrete witness: abort for every order-3 shape whose two first contracted modes differ |
| C03 | same | witness that at order ≥ 11 the labels coincide, and a shape where the result is wrong |
| C04 | `CPDTOptimizer` / `CPMSDTOptimizer` tree construction, map, init, recursion, step | invariant on the cache: each stored node is the partial contraction of V with the current factors |
| C05,C06 | steps as functions on (factors, optimizer state), solver a parameter | C04 + schedule lemma |
| C07 | `CPDTLROptimizer::step` schedule state (special, left1, left2, counters) | invariant over all reachable states |
| C08,C09 | LR caches | invariant over all reachable states |
| C10 | `update_S` | fold invariant |
| C11 | `grad_W` expression | polynomial identity over the spec |
| C12,C14,C28 | `cholesky_solve`, `SVD_solve`, `get_rankR_update_*`, `SVD_solve_mod` as matrix programs | matrix algebra |
| C13 | whole steps with exact solver | C11 + positive semidefiniteness of Gram product |
| C15,C16 | `build_V` with its label table; residual | loop invariant |
| C17 | `Normalize` over ℝ | products of scalings |
| C18–C21 | `CPD::als` loop over ℚ sweeps, oracles for gradient norm and clock | induction on steps |
| C22–C25 | `Construct_Dimension_Tree`, `mttkrp_map_DT`, sweep of `alsCP_DT` | induction over intervals; witness for order 5 and 3 |
| C26,C27 | `stringbuilder_mttkrp`, `Build_mttkrp_map`, PP matrix M | induction on key length; multilinear expansion |
| C29 | PP iteration incl. Normalize | witness; and positive statement without Normalize |
| C30,C31 | `alsCP_PP` + `alsCP_DT_sub` + `alsCP_PP_sub` as a control automaton with oracles | measure argument; livelock by invariant |
| C32 | `sort_indexes`, selection loop | permutation/sortedness lemmas |
| C33–C36 | `TTMc`, `get_core_tensor`, `ttmc_map_DT`, `Build_ttmc_map`, Tucker PP | as for CP |
| C37,C38 | sign fix loop; HOOI sweep with SVD oracle | real inequalities |
| C39–C41 | generators, `fold_unfold` | loop invariants, index arithmetic |
| C42,C43 | `Gram_Schmidt`, `collinearity`, rejection loop | real algebra; loop invariant |
| C44 | `getCmdOption`, clamps of `run.cxx` | list induction, case analysis |
| C45 | constructors, `Init`, `configure`, destructors on the heap automaton | execution of the automaton for all states; witness |
| C46 | trace of collectives of `CPD::als` per rank | induction on steps; witness for divergence |
| C47 | `vec2str`, `stringbuilder_mttkrp` | injectivity |
| C48 | the legacy loops as control automata | induction |
| C49 | the rows written by `CPD::als` (iteration, gradient norm, residual) as part of the loop state | induction on steps; the rows are a function of the trace of optimizer states |
| C50 | `alsCP_PP_partupdate_sub` with its incremental right-hand sides `dM` | ghost history of who was updated when; concrete run for the violation |
| C51 | `main` of run.cxx: options, construction of the tensor, dispatch | case analysis over the tensor kinds; the shape assertions as faults |
| C52 | the noise block of run.cxx | algebra of norms |
| C53 | the Tucker loops with the core as state | the invariant "the core belongs to the factors" per driver; counterexample for `alsTucker` |
| C54 | `alsTucker_PP` with `alsTucker_DT_sub`, `alsTucker_PP_sub` as instances of the two-phase driver automaton | loop invariants per phase; measure: iterations plus remaining reductions of `tol_init`; livelock by invariance of the state |
| C55 | the same drivers with an instrumented sweep | simulation: the instrumented driver and the driver agree on every input |
| C56 | `alsCP_PP_partupdate` as an instance of the driver automaton | comparison with a driver with a total sort; a concrete tensor for the undefined sort |
| C57 | `main` of test_ALS.cxx: options, tensor, call of the driver (`Model/Main.lean`) | composition of C39–C44, C48, C30, C54, C56, C38; the violations from C24, C35, C39, C40; which orders and sizes `-pp 1` and `-pp 2` accept (C24, C35, C04, C15) |
| C58 | `get_rankR_update_*`, low-rank branch of `CPDTLROptimizer::step` | Eckart–Young (`Proofs/EckartYoung.lean`) for the whitened residual, then the per-mode quadratic of the objective |
| C59 | `main` of run.cxx (`Model/RunMain.lean`) | composition of C57's tensor, C44, C51, C04–C09, C18–C20, C49, C13; the first order and size violations from C03, C04, C15 |
| C60 | `KhatriRaoProduct` (`Model/Common.lean`) | induction over the passes of the loop, labels `'a'+t`, `'j'`, `'k'` distinct below ten factors; the eleventh pass repeats `'j'` |
| C61 | `apply_rankR_update` (`Model/Common.lean`) | evaluation of the ternary contraction against `Spec.ttm` |
| C62 | `Gauss_Seidel` (`Model/Common.lean`) | `(A'-A) Lᵀ = F - A Γ`; energy identity; bounded monotone energy makes the increments vanish, hence the residual and the error |
| C63 | `main` of pp_bench.cxx (`Model/Bench.lean`) | the sweeps do not read the old gradient (lockstep induction over the updates), so all repetitions share their sweeps; `bench` mode advances `iter` in every PP phase, hence terminates for any clock; then step through the at most two passes |
| C64 | the drivers as programs of a rank over collective operations (`Model/SpmdLegacy.lean`), proved to run like the drivers of C30/C48 on one rank | induction over the program: ranks that agree in the time tests that decide stay together; at a disagreement the next collective operations differ |
| C65 | the `als` loop and `alsCP_DT` of C18/C48 over ℝ with `lambda > 0`; `Spec.AlsTrace` (a run of single-mode updates) | each update is the exact minimiser of a strongly convex quadratic, so the regularised error drops by at least `lambda‖ΔW‖²`, and the gradient seen is `ΔW` times a matrix bounded by the start; summing the drops bounds the number of logged gradient norms ≥ tol; boundedness gives limit points, continuity of the gradient their stationarity; for `alsCP_DT` the AM-GM inequality shows `Normalize` does not increase the regularisation. λ = 0 and the low-rank optimizers are not covered (no convergence theorem holds there in general) |
| C66 | the loops of C48 with the sweeps of C38 | the core norm is nondecreasing and bounded by `‖V‖`, so at most `‖V‖/tol + 1` tests can see a change of `tol` or more; monotone convergence, compactness of orthonormal factors and continuity of the core norm for the limits |
| C67 | the loops with the comparisons as a parameter (`Model/Ieee.lean`), which for finite values are the loops of C20, C30, C48 (`Proofs/Ieee.lean`); mains use them directly | induction on the fuel with the invariant that the last value in the log is the one compared; NaN compares false with everything |
| C68 | the tree, direct and legacy MTTKRP, update_S, gradient, build_V with the evaluation of contractions as a parameter (`Model/Round.lean`); with exact evaluation these are the other definitions (`*_exact`) | `FlPoly` induction gives the error of one contraction in any evaluation order; invariants of C01, C04, C15, C25 with a pair of exact tensors (values, absolute values) and a growing factor |
| C69 | `hosvd`, the loops of C48 and the main program of C57 | Pythagoras for a product of projections: the error is at most the sum over the modes of the energy lost by projecting one mode; Ky Fan bounds each loss by that of any competitor of the same rank (whose column space has an orthonormal basis); the sweeps never increase the error (C38) |
| C70 | the PP operators and updates of C27, C36, the driver of C54/C55 | the neglected terms (C27, C36) are multilinear; Cauchy-Schwarz bounds an MTTKRP by the norms of its factors, orthonormal factors do not increase a multi-mode product; the sum over sets of two or more modes is `∏(1+e_j) - 1 - ∑ e_j`; `S ≥ lambda I` for the factor; the guard of C55 gives `‖dW_j‖ ≤ tol_init √r_j` |
| C71 | `als` of C18 on reached states; `calls`: a list of calls one after the other; `alsCPDT` of C48 | the state after a call is the state after its number of steps (history of C18), steps compose; iteration 0 is always tested; sums of step limits |
| C72 | optimizer runs of C65, `als`, `alsCPDT` with `Normalize` | a positive definite system has one solution, so a mode with zero gradient is not moved; an update that does not lower the objective moves nothing (exact decrease of C65); a point with objective 0 is a minimum, so its gradient is 0; `Normalize` keeps the reconstruction (C17); low-rank: a correction that does not raise the strictly convex mode objective above its minimum has the entries of the minimiser, and a best correction that does not lower it beats all rank-1 directions, so the gradient is 0 |
| C73 | optimizer runs of C65 with the explicit schedule `optModes`, `als`; `Spec/Symmetry.lean` | MTTKRP and Gram matrices of the second problem computed from those of the first; a positive definite system has one solution, so each update commutes with the change; induction over the schedule; equal residuals and gradient norms give equal decisions of `als` (`hist_unique`) |
| C74 | copies of the optimizer steps and the PP phase that also enter every index expression in a log (`Model/Cost.lean`); `Spec/Work.lean` | the copies return what the originals return (`Erases`); a relation `Runs` between a computation and the list it enters, an invariant of the tree cache saying which nodes have been built, induction over tree, schedule and number of steps; geometric sums for the bounds |
| C75 | the low-rank steps and solvers of C07, C14 against the exact steps of C05, C06 | at full rank the truncated update equals the exact one (positive definite systems have one solution), so the low-rank runs are ALS runs over the same modes; two half sweeps make one sweep; the als histories are then equal; for DT the checks at even steps are equal, so with an even log interval the histories agree until the last sweep |
| C76 | the Tucker sweeps and drivers of C35, C38, C48, C53 against HOOI stated for projectors W Wᵀ only (`Spec/Span.lean`: no basis is chosen) | with an eigenvalue gap the maximiser of the trace has a unique projector (Ky Fan with equality); reconstruction, core norm and Gram matrices are functions of the projectors; so the stop tests of two runs agree |
| C77 | the same | the Gram matrices of V' are c^2 Q G Qᵀ, so leading projectors become Q P Qᵀ: the second run of projectors is the first one conjugated; then C76 |
| C78 | the base class with its assertions on shapes, on the abstract heap of C45 (`Model/Decomp.lean`) | induction over the history: the freed blocks are the tensors and factor arrays before the last ones; for a repeated array: once owned it stays owned or freed, and a freed owned array is used by every continuation |
| C79 | constructor, Init and als as one program for arbitrary data (`cpdSession`), and tests/test_decomposition.cxx with its numbers (`testCpd`) | C18 and the optimizer specifications; shapes of the recorded gradients give the closed form of the stop test; two DT steps are a sweep |
| C80 | the Tucker functions over an arbitrary evaluator of contractions and entrywise operations (`Model/RoundTucker.lean`; exact evaluation gives `Model/Tucker.lean` by `rfl`) | relation between the rounded tensor, the exact one and the one in absolute values, carried through every contraction; Ky Fan with perturbed Gram matrices for the objective |
| C81 | the optimizers over an arbitrary evaluator of contractions (`Model/Round.lean`) and solvers with the contract `SolvesBack` | C68 gives the error of the normal equations at the factors at hand; strong convexity turns the gradient left by an update into a loss; bounds of all sizes by the objective close the induction over the updates |
| C82 | the operators, right-hand sides and updates of a PP phase over an arbitrary evaluator of contractions (`Model/RoundPP.lean`) | the operators by the induction of C26 with the error factor per contraction of C68; sums by the error of one addition; relative errors of displacements by linearity of the first-order expression |
| C83 | `ppUpdate(s)`, `ppSweep`, `tuckPPUpdate`, `tuckPPSweep` of the PP models | CP: the gradient at the new factor is the neglected part of the MTTKRP (C70), and the objective exceeds its minimum over one factor by at most the squared gradient over lambda; convexity for the damping; induction over the modes. Tucker: the new factor is best for the perturbed tensor, orthonormal columns do not enlarge the difference to the exact one (Pythagoras), twice the triangle inequality; induction over modes and sweeps |
| C84 | `hosvdR`, `tuckSweepR`, `tuckSweepDTR` of the rounding model (`Model/RoundTucker.lean`) | the loss of a mode for the leading vectors of a perturbed Gram matrix exceeds the optimal one by 4 times the perturbation (as in C80); Pythagoras over the modes as in C69; induction over the sweeps |
| C85 | `cpdAlsR`, `gradnormR`, `optStepR` (`Model/RoundAls.lean`): the loop of `Model/AlsLoop.lean` around the steps of the rounding model | C81 for groups of steps, history of the loop as in C65, continuity in the precision |
| C86 | the loops of C18, C48, C30, C54, C56, C63 with a stream as additional state (`Model/LogFile.lean`), `Spec/Log.lean` (text of a list of tests; writes of several ranks at their own offsets) | the loops with stream refine those without (`Sim`); the text is a function of the rows or of the trace; invariant 'the file is a prefix of the text of rank 0' |
| C87 | the legacy sweeps with a log of contractions (`Model/CostLegacy.lean`, as `Model/Cost.lean` for C74) | erasing the log gives the uncounted sweep; the work of a sweep is the sum over the nodes of the binary tree, each computed once (invariant on the set of cached nodes); sums by geometric decay along the levels; memory (`Properties/MemoryLegacy.lean`): every product fills at most 1/d as many entries as it adds up products |
| C88 | `cpdAlsD` (`Model/SweepCounter.lean`): the loop of `Model/AlsLoop.lean` with a counter rounded by any function that rounds rationals to a nearest binary64 number (`Spec/Double.lean`) | exact sums are binary64 numbers, so the loops agree step by step; otherwise induction on the error of the counter, and exact multiples of 1/N against an integer |
| C89 | the drivers of `Model/LegacyLoop.lean`, `Model/PPDriver.lean`, `Model/PartDriver.lean`, executed on two related problems | simulation: a relation between the data of the two runs that every computation of the driver preserves and under which every measured value is equal (`Proofs/Sim.lean`, `Proofs/SymLegacy.lean`), then induction over the loops |
| C90 | the loops of `Model/AlsLoop.lean`, `Model/LegacyLoop.lean`, `Model/TuckPP.lean`, executed with two different algorithms | every optimizer passes through the states of the same sequence of mode updates (C05, C06, C25, C35); a test at equal sweep counts sees equal values; for `Normalize`: invariance of the sweep under column rescaling (`Coord`), induction over the sweeps |
| C91 | the PP drivers and `alsCP_DT` as modelled for C30, C48, C56 | simulation of the dimension tree phase by the loop of `alsCP_DT`, closing test always false; a property of (data, events) kept by everything a driver does; for `alsTucker_PP` the same simulation, then a second one between the sweeps with and without sign alignment, whose factors span the same subspaces (C76), and the same kept property with HOOI subspaces; the same for two command lines of `test_ALS` (`testProgram`) that differ in `-pp` |

Properties marked VIOLATED in `properties.jsonl` describe what the code does where an expectation a user would have fails;
they are handled by proving the failure (for a whole family of inputs where possible) and, where meaningful, the strongest
true positive statement.

## 4. Trusted base

### 4.1 Lean
* Lean 4.33.0's kernel; Mathlib as installed (no `native_decide`, `bv_decide`, no own axioms).
* Axioms: `#print axioms` on every theorem listed in `MANIFEST.json` prints a subset of
  `propext`, `Classical.choice`, `Quot.sound` (the full list per theorem is in `AXIOMS.md`, generated by
  `tools/mkaxioms.py`).  Most use all three because they talk about `ℝ` or `Finset` sums.

### 4.2 What ties the model to the code
Only reading: every definition under `lean/Verif/Model` cites the lines it models.  The following semantics of code outside
the repository are built into the model and are trusted:

* **CTF index expressions** (`einsum`, `accumT`, `zipT` in `Model/Ctf.lean`): exactly `order` characters of each label string
  are read; labels with equal codes denote the same index; labels missing in the output are summed; equal labels with
  different edge lengths abort the run; a repeated label in the output writes the diagonal only.  A string that is too
  short, an out-of-range array access or a missing map key is the outcome `ub`.
  In particular the label arrays of `als_Tucker.cxx` that are never NUL-terminated (`seq_Y_end`) are read up to `order` only.
* **CTF symmetric matrices** (`strictUpper` in `Model/Common.lean`, used by C62 only): assigning a nonsymmetric matrix to one declared
  `SH` stores `Γ_ij + Γ_ji` for `i < j`; copying it to a nonsymmetric tensor keeps these stored entries and fills the rest with zeros.
* **CTF data access** (`Model/Generators.lean`): `write` adds the values given for the same index by all ranks and
  replaces the old entry, indices out of range are `ub`; `read_local` parts over the ranks are together a permutation of all
  entries; the global index is column-major.
* **Numerical kernels** `cholesky`, `solve_tri`, `svd`, `qr` (`Kern` in `Model/Solve.lean`): arbitrary functions; each theorem
  states the contract it needs (`KernOk`, `SvdShape`, `SvdLeading`, ...), and the contracts are proved satisfiable over `ℝ`
  (`exists_kernOk`, `exists_svdLeading`), so no theorem is vacuous through them.
* **`double`** is an exact commutative ring / field, `ℝ` where square roots or the order are used.  Rounding is modelled only
  in `Model/Round.lean`, `Model/RoundTucker.lean`, `Model/RoundPP.lean` and `Model/RoundAls.lean` (C68, C80, C81, C82, C84, C85, standard model `|fl(x∘y) - x∘y| ≤ eps|x∘y|` without overflow and underflow, any evaluation order); overflow and
  signed zero are not modelled.  NaN and infinity are modelled only where a comparison with them decides the control flow:
  option parsing (`F64`), the stop tests of all drivers (`Model/Ieee.lean`), the ratio tests of the PP drivers (`quotLt`, `quotGt`), the sort keys of the partial-update variant
  (`Rel`), the collinearity window (`colBad`).
* **`int`** is unbounded, except that `atoi` outside the 32-bit range is `ub`.  `char` is a signed 8-bit integer (`letter` wraps),
  so labels of modes `>= 31` are negative and are not decodable by `seq[j]-'a'`.
* **Clock, random streams, gradient norms as seen by a rank** are arbitrary functions; a theorem quantifies over all of them.
* **`std::sort`** by its contract (`SortSpec`: a permutation ordered by the comparison; precondition: strict weak order,
  otherwise `ub`).  `atof` is an arbitrary function into reals, infinities and NaN.
* **`assert` is enabled** (no `NDEBUG`).
* **Loops without an a-priori bound** take fuel; running out of fuel is the distinct outcome `diverge`.  Termination theorems
  exhibit sufficient fuel and theorems about livelocks show that every fuel runs out.
* **Memory** (`Model/Ownership.lean`): abstract addresses never reused, `new`/`new[]` kinds tracked, `delete` of null is a no-op,
  anything else not live is `ub`.
* **`std::ofstream`** (`Model/LogFile.lean`): output to an open stream extends the file, output to a closed one does nothing; closing twice
  is harmless.  Ranks that share a file write at their own offsets (`Spec/Log.lean`).
* **MPI** (`Model/Spmd.lean`): the gradient/residual check and the optimizer step are collective operations with the same answer
  on all ranks; ranks waiting in different collectives are a deadlock.  For the legacy drivers (`Model/SpmdLegacy.lean`) sweeps, tests
  and set-up of operators are the collective operations; ranks about to call different ones are a `mismatch`.

### 4.3 Modelled code
* `common.cxx`: `vec2str`, `mttkrp_map_DT`, `build_V`, `swap_char`, `unroll_tensor_contraction`, `Construct_Dimension_Tree`,
  `unit_tensor`, `Gram_Schmidt`, `collinearity`, `build_V_vec`, `Gen_collinearity`, `identitiy_tensor`, `random_laplacian_tensor`,
  `laplacian_tensor`, `Normalize`, `randomized_svd`, `SVD_solve`, `cholesky_solve`, `SVD_solve_mod`, `matrixDot`,
  `get_rankR_update_cholesky`, `get_rankR_update_svd`, `apply_rankR_update`, `Gauss_Seidel`, `fold_unfold`,
  `KhatriRaoProduct`, `KhatriRao_contract`, `gradsubprob`, `gradient_CP`.
* `als_CP.cxx`: `alsCP`, `alsCP_DT`, `stringbuilder_mttkrp`, `Build_mttkrp_map`, `alsCP_DT_sub`, `alsCP_PP_sub`, `sort_indexes`,
  `alsCP_PP_partupdate_sub`, `alsCP_PP`, `alsCP_PP_partupdate`.
* `als_Tucker.cxx`: all functions.
* `tests/test_decomposition.cxx`. `src/`: `Decomposition` and `CPD` constructors (the scalar ones), `Init`, prints, destructors, `update_gradnorm`, `als`; all five
  optimizers (`configure`, `update_S`, tree construction, caches, `step`).
* `run.cxx`, `test_ALS.cxx` and `pp_bench.cxx`: `getCmdOption`, all options with their clamps, construction of the tensor, start, choice and call of
  the optimizer or driver, i.e. all of `main` except printing.

### 4.4 Not modelled
* Printing to the terminal, MPI file input (the data sets' content). Of the log file (C86) the lines are modelled as values: the
  conversion of numbers to characters is not, writes are assumed to succeed, and measured times are arbitrary numbers.
* The `int *` constructors of `Decomposition`/`CPD` (they store through an uninitialised `world` pointer).
* `src/Tucker.*` (a near-duplicate of `als_CP.cxx` that no target compiles), `visdom/`, `script/`, `config/`.
* Parallel data distribution, communication, run time and stack use of variable-length arrays. Of performance only two things are
  modelled, for C74 and C87: how many products each index expression of the CP optimizers, of the CP PP phase, of `alsCP_DT`, `alsTucker` and
  `alsTucker_DT` adds up and (C74) how many entries its result has (`Model/Cost.lean`, `Model/CostLegacy.lean`); solver kernels, pointwise sums and the way CTF evaluates an expression are not counted.
* `alsTucker_DT`, `alsTucker_DT_sub` and `alsTucker_PP_sub` when a start factor has another number of columns than `core` has in that
  mode: the code takes `lens_Y` from the start factors, the model (`lensY`) from the current ones; the theorems assume they agree.
* Order 19 of `build_V`, `unroll_tensor_contraction` and `get_core_tensor`: the label table yields NUL there and the outcome depends on
  CTF internals; nothing is claimed.

### 4.5 Testing the theorems
`seeded/LOG.jsonl` records edits of the model that imitate realistic bugs, the claim each breaks and the theorems whose
proofs failed.

### 4.6 Non-vacuity
Every theorem named in `MANIFEST.json` whose hypotheses could be unsatisfiable is applied to a concrete case in an `example`: at
the end of its own property file or in `Properties/Witness1.lean` .. `Witness6.lean` (grouped by property). Where a hypothesis is a
contract of a kernel (`SvdTruncates`, `LRKernOk`, `SvdLeading`, ...) the examples first prove that some kernel meets it
(`exists_lrKernOk`, `exists_svdLeading`, ...).
