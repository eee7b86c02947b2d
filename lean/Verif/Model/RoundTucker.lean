import Verif.Model.Round
import Verif.Model.Tucker

/-! # The Tucker computations in floating-point arithmetic

As `Round.lean`: the functions of `Tucker.lean` with the evaluation of contractions and elementwise sums as a parameter.  With exact
evaluation they are those functions (`*_exact`). -/

namespace Model

variable (P : Arith)

/-- As `ttmcStep` (als_Tucker.cxx:96-109). -/
def ttmcStepR (order : ℕ) (W : List (Tensor ℝ)) (i : ℤ) (s : Tensor ℝ × Tensor ℝ × List ℕ) (index : ℕ) :
    Except Fault (Tensor ℝ × Tensor ℝ × List ℕ) :=
  if (index : ℤ) = i then pure s
  else do
    let Wi ← rd W index
    let lens := s.2.2.set index (ncol Wi)
    let Y ← P.ev lens ((allLetters order).set index lk) [(s.1, allLetters order), (Wi, [letter index, lk])]
    pure (Y, Y, lens)

/-- As `ttmc` (als_Tucker.cxx:76-110). -/
def ttmcR (Y0 V : Tensor ℝ) (W : List (Tensor ℝ)) (i : ℤ) : Except Fault (Tensor ℝ) := do
  let r ← (List.range V.lens.length).foldlM (ttmcStepR P V.lens.length W i) (V, Y0, V.lens)
  pure r.2.1

/-- As `unroll` (common.cxx:205-223). -/
def unrollR (T : Tensor ℝ) (i : ℕ) : Except Fault (Tensor ℝ) := do
  let arg ← (List.range T.lens.length).mapM chr
  let n ← rd T.lens i
  P.ev [n, n] [hat, ampersand] [(T, arg.set i hat), (T, arg.set i ampersand)]

/-- As `transposeT` (als_Tucker.cxx:56-58, 301-304). -/
def transposeTR (F : Tensor ℝ) : Except Fault (Tensor ℝ) := P.ev [ncol F, nrow F] [li, lj] [(F, [lj, li])]

/-- As `coreStep` (als_Tucker.cxx:53-62). -/
def coreStepR (arg : Key) (F : List (Tensor ℝ)) (ranks : List ℕ) (s : Tensor ℝ × List ℕ) (i : ℕ) :
    Except Fault (Tensor ℝ × List ℕ) := do
  let r ← rd ranks i
  let lens := s.2.set i r
  let a ← rd arg i
  let Fi ← rd F i
  let Ft ← transposeTR P Fi
  let C ← P.ev lens (arg.set i 97) [(Ft, [97, a]), (s.1, arg)]
  pure (C, lens)

/-- As `getCoreTensor` (als_Tucker.cxx:25-64). -/
def getCoreTensorR (T : Tensor ℝ) (F : List (Tensor ℝ)) (ranks : List ℕ) : Except Fault (Tensor ℝ) := do
  let arg ← (List.range T.lens.length).mapM chr
  let r ← (List.range T.lens.length).foldlM (coreStepR P arg F ranks) (T, T.lens)
  pure r.1

/-- As `getFactorMatrices` (als_Tucker.cxx:12-23). -/
def getFactorMatricesR (k : Kern ℝ) (T : Tensor ℝ) (ranks : List ℕ) : Except Fault (List (Tensor ℝ)) :=
  (List.range T.lens.length).mapM fun (i : ℕ) => do
    let M ← unrollR P T i
    let r ← rd ranks i
    pure (k.svd M r).U

/-- As `hosvd` (als_Tucker.cxx:66-70). -/
def hosvdR (k : Kern ℝ) (T : Tensor ℝ) (ranks : List ℕ) : Except Fault (Tensor ℝ × List (Tensor ℝ)) := do
  let W ← getFactorMatricesR P k T ranks
  let C ← getCoreTensorR P T W ranks
  pure (C, W)

/-- As `ttmLoop` (als_Tucker.cxx:208-226). -/
def ttmLoopR (order : ℕ) (W : List (Tensor ℝ)) (sb : Key) (T0 : Tensor ℝ) : Except Fault (Tensor ℝ) := do
  let r ← (List.range sb.length).foldlM (fun (s : Tensor ℝ × List ℕ) (j : ℕ) => do
    let c ← rd sb j
    let Wc ← rd W (decode c)
    if c < 97 ∨ (order : ℤ) ≤ c - 97 then .error .ub
    else do
      let lens := s.2.set (c - 97).toNat (ncol Wc)
      let T ← P.ev lens ((allLetters order).set (c - 97).toNat star) [(s.1, allLetters order), (Wc, [c, star])]
      pure (T, lens)) (T0, T0.lens)
  pure r.1

/-- As `tuckMapDT` (als_Tucker.cxx:178-230). -/
def tuckMapDTR (order : ℕ) (tree : LTree) (V : Tensor ℝ) (W : List (Tensor ℝ)) (fuel : ℕ) (args : Key) (cache : Cache ℝ) :
    Except Fault (Cache ℝ) :=
  dtNode order tree (fun args => ttmLoopR P order W (mapGet tree.sibling args) V)
    (fun args Tp => ttmLoopR P order W (mapGet tree.sibling args) Tp) fuel args cache

/-- As `tuckY` (als_Tucker.cxx:355-397, 574-614). -/
def tuckYR (order : ℕ) (tree : LTree) (V : Tensor ℝ) (W : List (Tensor ℝ)) (cache : Cache ℝ) (i : ℕ) :
    Except Fault (Tensor ℝ × Cache ℝ) := do
  let lens ← lensY order V W i
  let a0 := letter i
  let p := mapGet tree.parent [a0]
  let sb := mapGet tree.sibling [a0]
  let cache ← (if (cache.lookup p).isNone then tuckMapDTR P order tree V W (order + 1) p cache else pure cache)
  let p0 ← rd p 0
  let p1 ← rd p 1
  match cache.lookup p with
  | none => .error .ub
  | some Tp =>
    if sb.length = 1 then do
      let c := if a0 = p0 then p1 else p0
      let Wc ← rd W (decode c)
      let Y ← P.ev lens ((allLetters order).set (decode c).toNat star) [(Tp, allLetters order), (Wc, [c, star])]
      pure (Y, cache)
    else do
      let p2 ← rd p 2
      let c1 := if p0 = a0 then p1 else p0
      let c2 := if p0 = a0 then p2 else p1
      let W1 ← rd W (decode c1)
      let W2 ← rd W (decode c2)
      let Y ← P.ev lens (((allLetters order).set (decode c1).toNat star).set (decode c2).toNat hat)
        [(Tp, allLetters order), (W1, [c1, star]), (W2, [c2, hat])]
      pure (Y, cache)

/-- As `coreEnd` (als_Tucker.cxx:408, 645, 887). -/
def coreEndR (order : ℕ) (clens : List ℕ) (Yend Wl : Tensor ℝ) : Except Fault (Tensor ℝ) :=
  P.ev clens (allLetters order) [(Yend, (allLetters order).set (order - 1) star), (Wl, [star, letter (order - 1)])]

/-- As `factorOf` (als_Tucker.cxx:152-160, 398-405). -/
noncomputable def factorOfR (k : Kern ℝ) (Y : Tensor ℝ) (i r : ℕ) : Except Fault (Tensor ℝ) := do
  let M ← unrollR P Y i
  let U := (k.svd M r).U
  if norm2 U < 0 then pure (negT U) else pure U

/-- As `tuckUpdate` (als_Tucker.cxx:143-161). -/
noncomputable def tuckUpdateR (k : Kern ℝ) (V : Tensor ℝ) (clens : List ℕ) (W : List (Tensor ℝ)) (i : ℕ) :
    Except Fault (List (Tensor ℝ)) := do
  let Y ← ttmcR P ⟨[], fun _ => 0⟩ V W i
  let r ← rd clens i
  let U ← factorOfR P k Y i r
  pure (W.set i U)

/-- As `tuckSweep` (als_Tucker.cxx:142-161). -/
noncomputable def tuckSweepR (k : Kern ℝ) (V : Tensor ℝ) (clens : List ℕ) (W : List (Tensor ℝ)) :
    Except Fault (List (Tensor ℝ)) :=
  (List.range V.lens.length).foldlM (tuckUpdateR P k V clens) W

/-- As `tuckUpdateDT` (als_Tucker.cxx:345-406). -/
noncomputable def tuckUpdateDTR (order : ℕ) (tree : LTree) (k : Kern ℝ) (V : Tensor ℝ) (clens : List ℕ)
    (s : List (Tensor ℝ) × Cache ℝ × Tensor ℝ) (i : ℕ) : Except Fault (List (Tensor ℝ) × Cache ℝ × Tensor ℝ) := do
  let r ← tuckYR P order tree V s.1 s.2.1 i
  let n ← rd clens i
  let U ← factorOfR P k r.1 i n
  pure (s.1.set i U, r.2, if i = order - 1 then r.1 else s.2.2)

/-- As `tuckSweepDT` (als_Tucker.cxx:342-408). -/
noncomputable def tuckSweepDTR (k : Kern ℝ) (V : Tensor ℝ) (clens : List ℕ) (W : List (Tensor ℝ)) :
    Except Fault (List (Tensor ℝ) × Tensor ℝ) := do
  let order := V.lens.length
  let r ← (List.range order).foldlM (tuckUpdateDTR P order (constructDT 0 (order - 1) {}) k V clens)
    (W, [], ⟨[], fun _ => 0⟩)
  let Wl ← rd r.1 ((order : ℤ) - 1)
  let C ← coreEndR P order clens r.2.2 Wl
  pure (r.1, C)

/-- As `ttmNode` (als_Tucker.cxx:444-465). -/
def ttmNodeR (order : ℕ) (W : List (Tensor ℝ)) (args : Key) (M : Tensor ℝ) : Except Fault (Tensor ℝ) := do
  let c ← rd args ((args.length : ℤ) - 1)
  if c < 97 ∨ (order : ℤ) ≤ c - 97 then .error .ub
  else do
    let Wc ← rd W (decode c)
    P.ev (M.lens.set (c - 97).toNat (ncol Wc)) ((allLetters order).set (c - 97).toNat star)
      [(M, allLetters order), (Wc, [c, star])]

/-- As `buildTtmcMap` (als_Tucker.cxx:426-466). -/
def buildTtmcMapR (order : ℕ) (V : Tensor ℝ) (W : List (Tensor ℝ)) (seq : Key) (cache : Cache ℝ) : Except Fault (Cache ℝ) :=
  buildNode (fun args => ttmNodeR P order W args V) (fun args Tp => ttmNodeR P order W args Tp) seq cache

/-- As `tuckOperators` (als_Tucker.cxx:745-764). -/
def tuckOperatorsR (order : ℕ) (V : Tensor ℝ) (W : List (Tensor ℝ)) : Except Fault (Cache ℝ) :=
  (ppKeys order).foldlM (fun cache seq => buildTtmcMapR P order V W seq cache) []

/-- As `accum`: the contraction, then the elementwise sum. -/
def accumR (C : Tensor ℝ) (sc : List Label) (ops : List (Tensor ℝ × List Label)) : Except Fault (Tensor ℝ) := do
  let E ← P.ev C.lens sc ops
  P.zp (· + ·) C E

/-- As `tuckPPContrib` (als_Tucker.cxx:838-862). -/
def tuckPPContribR (order : ℕ) (ops : Cache ℝ) (dW : List (Tensor ℝ)) (i : ℕ) (Y : Tensor ℝ) (j : ℕ) :
    Except Fault (Tensor ℝ) := do
  let dWj ← rd dW j
  match ops.lookup (if j < i then exceptTwo (allLetters order) j i else exceptTwo (allLetters order) i j) with
  | none => .error .ub
  | some T => accumR P Y ((allLetters order).set j star) [(T, allLetters order), (dWj, [letter j, star])]

/-- As `tuckPPY` (als_Tucker.cxx:831-862). -/
def tuckPPYR (order : ℕ) (ops : Cache ℝ) (dW : List (Tensor ℝ)) (i : ℕ) : Except Fault (Tensor ℝ) := do
  match ops.lookup (exceptOne (allLetters order) i) with
  | none => .error .ub
  | some Y0 => (List.range i ++ List.range' (i + 1) (order - (i + 1))).foldlM (tuckPPContribR P order ops dW i) Y0

/-- As `tuckCheck` (als_Tucker.cxx:283-316, 518-546, 775-795); the norms are taken exactly. -/
noncomputable def tuckCheckR (V core corePrev : Tensor ℝ) (W : List (Tensor ℝ)) : Except Fault (Tensor ℝ × ℝ × ℝ) := do
  let core ← ttmcR P core V W (-1)
  let WT ← (List.range V.lens.length).mapM fun (i : ℕ) => do transposeTR P (← rd W i)
  let Vc ← ttmcR P ⟨V.lens, fun _ => 0⟩ core WT (-1)
  let D ← P.zp (· - ·) Vc V
  pure (core, |norm2 core - norm2 corePrev|, norm2 D)

/-! With exact evaluation these are the functions of `Tucker.lean`. -/

theorem ttmcR_exact : ttmcR .exact = ttmc := rfl
theorem unrollR_exact : unrollR .exact = unroll := rfl
theorem getCoreTensorR_exact : getCoreTensorR .exact = getCoreTensor := rfl
theorem hosvdR_exact : hosvdR .exact = hosvd := rfl
theorem tuckSweepR_exact : tuckSweepR .exact = tuckSweep := rfl
theorem tuckOperatorsR_exact : tuckOperatorsR .exact = tuckOperators := rfl
theorem tuckCheckR_exact : tuckCheckR .exact = tuckCheck := rfl

theorem tuckYR_exact (order : ℕ) (tree : LTree) (V : Tensor ℝ) (W : List (Tensor ℝ)) (cache : Cache ℝ) (i : ℕ) :
    tuckYR .exact order tree V W cache i = tuckY order tree V W cache i := by
  unfold tuckYR tuckY
  refine bind_congr fun _ => bind_congr fun c => bind_congr fun _ => bind_congr fun _ => ?_
  cases List.lookup (mapGet tree.parent [letter i]) c <;> rfl

theorem tuckSweepDTR_exact : tuckSweepDTR .exact = tuckSweepDT := by
  funext k V clens W
  unfold tuckSweepDTR tuckSweepDT tuckUpdateDTR tuckUpdateDT
  simp only [tuckYR_exact]
  rfl

theorem tuckPPYR_exact : tuckPPYR .exact = tuckPPY := by
  funext order ops dW i
  have h : tuckPPContribR .exact order ops dW i = tuckPPContrib order ops dW i := by
    funext Y j
    unfold tuckPPContribR tuckPPContrib
    refine bind_congr fun _ => ?_
    cases ops.lookup (if j < i then exceptTwo (allLetters order) j i else exceptTwo (allLetters order) i j) <;> rfl
  unfold tuckPPYR tuckPPY
  rw [h]
  cases ops.lookup (exceptOne (allLetters order) i) <;> rfl

end Model
