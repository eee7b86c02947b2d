import Verif.Model.PP

/-! # Tucker: TTMc, HOSVD, dimension tree, pairwise perturbation (als_Tucker.cxx; common.cxx:205-223) -/

namespace Model

variable {K : Type}

/-- A well-formed Tucker problem: `V` has edge lengths `dims`, `W[j]` is `dims j x rk j`. -/
structure TuckShaped {N : ℕ} (dims rk : Fin N → ℕ) (V : Tensor K) (W : List (Tensor K)) : Prop where
  lensV : V.lens = List.ofFn dims
  count : W.length = N
  lensW : ∀ (j : Fin N) (M : Tensor K), W[j.1]? = some M → M.lens = [dims j, rk j]

/-- `'^'` (common.cxx:219-221; als_Tucker.cxx:377). -/
def hat : Label := 94

/-- `'&'` (common.cxx:220). -/
def ampersand : Label := 38

section

variable [CommRing K]

/-- Body of the loop of `TTMc` (als_Tucker.cxx:96-109).  The state is `V_temp`, `Y`, `lens_Y`. -/
def ttmcStep (order : ℕ) (W : List (Tensor K)) (i : ℤ) (s : Tensor K × Tensor K × List ℕ) (index : ℕ) :
    Except Fault (Tensor K × Tensor K × List ℕ) :=
  if (index : ℤ) = i then pure s
  else do
    let Wi ← rd W index
    let lens := s.2.2.set index (ncol Wi)
    let Y ← einsum lens ((allLetters order).set index lk) [(s.1, allLetters order), (Wi, [letter index, lk])]
    pure (Y, Y, lens)

/-- `TTMc(Y, V, W, i, dw)` (als_Tucker.cxx:76-110); `Y0` is the value of `Y` before the call.  `order` is `V.order`. -/
def ttmc (Y0 V : Tensor K) (W : List (Tensor K)) (i : ℤ) : Except Fault (Tensor K) := do
  let r ← (List.range V.lens.length).foldlM (ttmcStep V.lens.length W i) (V, Y0, V.lens)
  pure r.2.1

/-- `unroll_tensor_contraction(T, i)` (common.cxx:205-223). -/
def unroll (T : Tensor K) (i : ℕ) : Except Fault (Tensor K) := do
  let arg ← (List.range T.lens.length).mapM chr
  let n ← rd T.lens i
  einsum [n, n] [hat, ampersand] [(T, arg.set i hat), (T, arg.set i ampersand)]

/-- `transpose["ij"] = factor["ji"]` (als_Tucker.cxx:56-58, also 301-304). -/
def transposeT (F : Tensor K) : Except Fault (Tensor K) := einsum [ncol F, nrow F] [li, lj] [(F, [lj, li])]

/-- Body of the last loop of `get_core_tensor` (als_Tucker.cxx:53-62).  `core_tensors[i+1]` is declared with the first `i + 1`
edge lengths replaced by the ranks (als_Tucker.cxx:35-39). -/
def coreStep (arg : Key) (F : List (Tensor K)) (ranks : List ℕ) (s : Tensor K × List ℕ) (i : ℕ) :
    Except Fault (Tensor K × List ℕ) := do
  let r ← rd ranks i
  let lens := s.2.set i r
  let a ← rd arg i
  let Fi ← rd F i
  let Ft ← transposeT Fi
  let C ← einsum lens (arg.set i 97) [(Ft, [97, a]), (s.1, arg)]
  pure (C, lens)

/-- `get_core_tensor` (als_Tucker.cxx:25-64). -/
def getCoreTensor (T : Tensor K) (F : List (Tensor K)) (ranks : List ℕ) : Except Fault (Tensor K) := do
  let arg ← (List.range T.lens.length).mapM chr
  let r ← (List.range T.lens.length).foldlM (coreStep arg F ranks) (T, T.lens)
  pure r.1

/-- `get_factor_matrices` (als_Tucker.cxx:12-23). -/
def getFactorMatrices {F : Type} [Field F] (k : Kern F) (T : Tensor F) (ranks : List ℕ) :
    Except Fault (List (Tensor F)) :=
  (List.range T.lens.length).mapM fun (i : ℕ) => do
    let M ← unroll T i
    let r ← rd ranks i
    pure (k.svd M r).U

/-- `hosvd` (als_Tucker.cxx:66-70); the result is the core and the factor matrices. -/
def hosvd {F : Type} [Field F] (k : Kern F) (T : Tensor F) (ranks : List ℕ) :
    Except Fault (Tensor F × List (Tensor F)) := do
  let W ← getFactorMatrices k T ranks
  let C ← getCoreTensor T W ranks
  pure (C, W)

/-! ### the dimension tree -/

/-- The contraction loop of `ttmc_map_DT` (als_Tucker.cxx:208-226): `T0` is `V_parent`, `sb` the string of the sibling. -/
def ttmLoop (order : ℕ) (W : List (Tensor K)) (sb : Key) (T0 : Tensor K) : Except Fault (Tensor K) := do
  let r ← (List.range sb.length).foldlM (fun (s : Tensor K × List ℕ) (j : ℕ) => do
    let c ← rd sb j
    let Wc ← rd W (decode c)
    if c < 97 ∨ (order : ℤ) ≤ c - 97 then .error .ub
    else do
      let lens := s.2.set (c - 97).toNat (ncol Wc)
      let T ← einsum lens ((allLetters order).set (c - 97).toNat star) [(s.1, allLetters order), (Wc, [c, star])]
      pure (T, lens)) (T0, T0.lens)
  pure r.1

/-- `ttmc_map_DT` (als_Tucker.cxx:178-230). -/
def tuckMapDT (order : ℕ) (tree : LTree) (V : Tensor K) (W : List (Tensor K)) (fuel : ℕ) (args : Key) (cache : Cache K) :
    Except Fault (Cache K) :=
  dtNode order tree (fun args => ttmLoop order W (mapGet tree.sibling args) V)
    (fun args Tp => ttmLoop order W (mapGet tree.sibling args) Tp) fuel args cache

/-- `lens_Y` for the tensor `Y` of mode `i` (als_Tucker.cxx:280-283, 355-357; 578-582): the ranks, except the length of mode
`i`.  Simplification: the code fills the ranks once, from the factors passed in, the model reads them from the current factors; the
two agree when the start factors have `core.lens[i]` columns (every update returns that many), which all theorems assume. -/
def lensY (order : ℕ) (V : Tensor K) (W : List (Tensor K)) (i : ℕ) : Except Fault (List ℕ) := do
  let cols ← (List.range order).mapM fun (m : ℕ) => do pure (ncol (← rd W m))
  let n ← rd V.lens i
  pure (cols.set i n)

/-- The tensor `Y` of mode `i` (als_Tucker.cxx:355-397; identical in alsTucker_DT_sub, 574-614): make the parent of the leaf
available and contract it with the factors of the one or two other modes. -/
def tuckY (order : ℕ) (tree : LTree) (V : Tensor K) (W : List (Tensor K)) (cache : Cache K) (i : ℕ) :
    Except Fault (Tensor K × Cache K) := do
  let lens ← lensY order V W i
  let a0 := letter i
  let p := mapGet tree.parent [a0]
  let sb := mapGet tree.sibling [a0]
  let cache ← (if (cache.lookup p).isNone then tuckMapDT order tree V W (order + 1) p cache else pure cache)
  let p0 ← rd p 0
  let p1 ← rd p 1
  match cache.lookup p with
  | none => .error .ub
  | some Tp =>
    if sb.length = 1 then do
      let c := if a0 = p0 then p1 else p0
      let Wc ← rd W (decode c)
      let Y ← einsum lens ((allLetters order).set (decode c).toNat star) [(Tp, allLetters order), (Wc, [c, star])]
      pure (Y, cache)
    else do
      let p2 ← rd p 2
      let c1 := if p0 = a0 then p1 else p0
      let c2 := if p0 = a0 then p2 else p1
      let W1 ← rd W (decode c1)
      let W2 ← rd W (decode c2)
      let Y ← einsum lens (((allLetters order).set (decode c1).toNat star).set (decode c2).toNat hat)
        [(Tp, allLetters order), (W1, [c1, star]), (W2, [c2, hat])]
      pure (Y, cache)

/-- `core[seq] = Y_end[seq_Y_end] * W[V.order - 1][seq_W_end]` (als_Tucker.cxx:408, 645, 887): the core is declared with edge
lengths `clens`. -/
def coreEnd (order : ℕ) (clens : List ℕ) (Yend Wl : Tensor K) : Except Fault (Tensor K) :=
  einsum clens (allLetters order) [(Yend, (allLetters order).set (order - 1) star), (Wl, [star, letter (order - 1)])]

end

/-! ### factor updates -/

/-- `-U["ij"]` (als_Tucker.cxx:159, 404). -/
def negT [CommRing K] (U : Tensor K) : Tensor K := scaleT (-1) U

/-- The new factor from `Y` (als_Tucker.cxx:152-160, 398-405, 617-624): left singular vectors of `Y_(i) Y_(i)^T`, with the test
`norm_U < 0`. -/
noncomputable def factorOf (k : Kern ℝ) (Y : Tensor ℝ) (i r : ℕ) : Except Fault (Tensor ℝ) := do
  let M ← unroll Y i
  let U := (k.svd M r).U
  if norm2 U < 0 then pure (negT U) else pure U

/-- Update of mode `i` in `alsTucker` (als_Tucker.cxx:143-161).  `clens` are the edge lengths of `core`. -/
noncomputable def tuckUpdate (k : Kern ℝ) (V : Tensor ℝ) (clens : List ℕ) (W : List (Tensor ℝ)) (i : ℕ) :
    Except Fault (List (Tensor ℝ)) := do
  let Y ← ttmc ⟨[], fun _ => 0⟩ V W i
  let r ← rd clens i
  let U ← factorOf k Y i r
  pure (W.set i U)

/-- One sweep of `alsTucker` (als_Tucker.cxx:142-161). -/
noncomputable def tuckSweep (k : Kern ℝ) (V : Tensor ℝ) (clens : List ℕ) (W : List (Tensor ℝ)) :
    Except Fault (List (Tensor ℝ)) :=
  (List.range V.lens.length).foldlM (tuckUpdate k V clens) W

/-- Update of mode `i` in `alsTucker_DT` (als_Tucker.cxx:345-406); the state is `W`, `ttmc_map`, `Y_end`. -/
noncomputable def tuckUpdateDT (order : ℕ) (tree : LTree) (k : Kern ℝ) (V : Tensor ℝ) (clens : List ℕ)
    (s : List (Tensor ℝ) × Cache ℝ × Tensor ℝ) (i : ℕ) : Except Fault (List (Tensor ℝ) × Cache ℝ × Tensor ℝ) := do
  let r ← tuckY order tree V s.1 s.2.1 i
  let n ← rd clens i
  let U ← factorOf k r.1 i n
  pure (s.1.set i U, r.2, if i = order - 1 then r.1 else s.2.2)

/-- One sweep of `alsTucker_DT` (als_Tucker.cxx:342-408); the result is `W` and `core`.  The value of `Y_end` is overwritten
during the sweep. -/
noncomputable def tuckSweepDT (k : Kern ℝ) (V : Tensor ℝ) (clens : List ℕ) (W : List (Tensor ℝ)) :
    Except Fault (List (Tensor ℝ) × Tensor ℝ) := do
  let order := V.lens.length
  let r ← (List.range order).foldlM (tuckUpdateDT order (constructDT 0 (order - 1) {}) k V clens)
    (W, [], ⟨[], fun _ => 0⟩)
  let Wl ← rd r.1 ((order : ℤ) - 1)
  let C ← coreEnd order clens r.2.2 Wl
  pure (r.1, C)

/-! ### sign alignment -/

/-- The sign fix of `W[i]` against a reference (als_Tucker.cxx:631-643, 868-880): `check["ik"] = W["ji"] * Wref["jk"]`,
`S["i"] = check["ii"]`, `b > 0 ? 1 : -1`, `trans["ii"] = S["i"]`, `W["ij"] = W["ik"] * trans["kj"]`.  `S` has the length of
the vector of singular values, which is `W.ncol`. -/
noncomputable def signAlign (W Wref : Tensor ℝ) : Except Fault (Tensor ℝ) := do
  let c := ncol W
  let check ← einsum [c, c] [li, lk] [(W, [lj, li]), (Wref, [lj, lk])]
  let S ← einsum [c] [li] [(check, [li, li])]
  let S : Tensor ℝ := ⟨S.lens, fun idx => if fits S.lens idx = true then (if 0 < S.val idx then 1 else -1) else 0⟩
  let trans ← einsum [c, c] [li, li] [(S, [li])]
  einsum W.lens [li, lj] [(W, [li, lk]), (trans, [lk, lj])]

/-! ### pairwise perturbation -/

section

variable [CommRing K]

/-- Body of `Build_ttmc_map` (als_Tucker.cxx:444-465), given the tensor `M` it starts from; `c` is the last character of the
key. -/
def ttmNode (order : ℕ) (W : List (Tensor K)) (args : Key) (M : Tensor K) : Except Fault (Tensor K) := do
  let c ← rd args ((args.length : ℤ) - 1)
  if c < 97 ∨ (order : ℤ) ≤ c - 97 then .error .ub
  else do
    let Wc ← rd W (decode c)
    einsum (M.lens.set (c - 97).toNat (ncol Wc)) ((allLetters order).set (c - 97).toNat star)
      [(M, allLetters order), (Wc, [c, star])]

/-- `Build_ttmc_map` (als_Tucker.cxx:426-466). -/
def buildTtmcMap (order : ℕ) (V : Tensor K) (W : List (Tensor K)) (seq : Key) (cache : Cache K) :
    Except Fault (Cache K) :=
  buildNode (fun args => ttmNode order W args V) (fun args Tp => ttmNode order W args Tp) seq cache

/-- The operators of a Tucker PP phase (als_Tucker.cxx:745-764). -/
def tuckOperators (order : ℕ) (V : Tensor K) (W : List (Tensor K)) : Except Fault (Cache K) :=
  (ppKeys order).foldlM (fun cache seq => buildTtmcMap order V W seq cache) []

/-- `Y[seq_Y] += ttmc_map[args][seq] * dW[ii][seq_dW]` for the modes `ii` and `i` (als_Tucker.cxx:838-862). -/
def tuckPPContrib (order : ℕ) (ops : Cache K) (dW : List (Tensor K)) (i : ℕ) (Y : Tensor K) (j : ℕ) :
    Except Fault (Tensor K) := do
  let dWj ← rd dW j
  match ops.lookup (if j < i then exceptTwo (allLetters order) j i else exceptTwo (allLetters order) i j) with
  | none => .error .ub
  | some T => accum Y ((allLetters order).set j star) [(T, allLetters order), (dWj, [letter j, star])]

/-- The tensor `Y` of mode `i` in `alsTucker_PP_sub` (als_Tucker.cxx:831-862). -/
def tuckPPY (order : ℕ) (ops : Cache K) (dW : List (Tensor K)) (i : ℕ) : Except Fault (Tensor K) := do
  match ops.lookup (exceptOne (allLetters order) i) with
  | none => .error .ub
  | some Y0 => (List.range i ++ List.range' (i + 1) (order - (i + 1))).foldlM (tuckPPContrib order ops dW i) Y0

end

/-- Update of mode `i` in `alsTucker_PP_sub` (als_Tucker.cxx:826-884); the state is `W`, `dW`, `Y_end`. -/
noncomputable def tuckPPUpdate (order : ℕ) (k : Kern ℝ) (clens : List ℕ) (ops : Cache ℝ) (Winit : List (Tensor ℝ))
    (s : List (Tensor ℝ) × List (Tensor ℝ) × Tensor ℝ) (i : ℕ) :
    Except Fault (List (Tensor ℝ) × List (Tensor ℝ) × Tensor ℝ) := do
  let Y ← tuckPPY order ops s.2.1 i
  let n ← rd clens i
  let U ← factorOf k Y i n
  let Wi0 ← rd Winit i
  let Wi ← signAlign U Wi0
  let d ← zipT (· - ·) Wi Wi0
  pure (s.1.set i Wi, s.2.1.set i d, if i = order - 1 then Y else s.2.2)

/-- One sweep of `alsTucker_PP_sub` (als_Tucker.cxx:826-887); the result is `W`, `dW` and `core`. -/
noncomputable def tuckPPSweep (order : ℕ) (k : Kern ℝ) (clens : List ℕ) (ops : Cache ℝ) (Winit W dW : List (Tensor ℝ)) :
    Except Fault (List (Tensor ℝ) × List (Tensor ℝ) × Tensor ℝ) := do
  let r ← (List.range order).foldlM (tuckPPUpdate order k clens ops Winit) (W, dW, ⟨[], fun _ => 0⟩)
  let Wl ← rd r.1 ((order : ℤ) - 1)
  let C ← coreEnd order clens r.2.2 Wl
  pure (r.1, r.2.1, C)

/-- Update of mode `i` in `alsTucker_DT_sub` (als_Tucker.cxx:569-644); the state is `W`, `ttmc_map`, `Y_end`. -/
noncomputable def tuckUpdateDTsub (order : ℕ) (tree : LTree) (k : Kern ℝ) (V : Tensor ℝ) (clens : List ℕ)
    (Wprev : List (Tensor ℝ)) (s : List (Tensor ℝ) × Cache ℝ × Tensor ℝ) (i : ℕ) :
    Except Fault (List (Tensor ℝ) × Cache ℝ × Tensor ℝ) := do
  let r ← tuckY order tree V s.1 s.2.1 i
  let n ← rd clens i
  let U ← factorOf k r.1 i n
  let Wp ← rd Wprev i
  let Wi ← signAlign U Wp
  pure (s.1.set i Wi, r.2, if i = order - 1 then r.1 else s.2.2)

/-- One sweep of `alsTucker_DT_sub` (als_Tucker.cxx:566-645); the result is `W` and `core`. -/
noncomputable def tuckSweepDTsub (k : Kern ℝ) (V : Tensor ℝ) (clens : List ℕ) (Wprev W : List (Tensor ℝ)) :
    Except Fault (List (Tensor ℝ) × Tensor ℝ) := do
  let order := V.lens.length
  let r ← (List.range order).foldlM (tuckUpdateDTsub order (constructDT 0 (order - 1) {}) k V clens Wprev)
    (W, [], ⟨[], fun _ => 0⟩)
  let Wl ← rd r.1 ((order : ℤ) - 1)
  let C ← coreEnd order clens r.2.2 Wl
  pure (r.1, C)

/-! ### the printed quantities -/

/-- The check of all Tucker drivers (als_Tucker.cxx:283-316, 518-546, 775-795): the core, `abs(core.norm2() - core_prev.norm2())`
and the residual `V_check - V`, where `V_check` is the core multiplied by the transposed factors. -/
noncomputable def tuckCheck (V core corePrev : Tensor ℝ) (W : List (Tensor ℝ)) : Except Fault (Tensor ℝ × ℝ × ℝ) := do
  let core ← ttmc core V W (-1)
  let WT ← (List.range V.lens.length).mapM fun (i : ℕ) => do transposeT (← rd W i)
  let Vc ← ttmc ⟨V.lens, fun _ => 0⟩ core WT (-1)
  let D ← zipT (· - ·) Vc V
  pure (core, |norm2 core - norm2 corePrev|, norm2 D)

end Model
