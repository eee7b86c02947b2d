import Verif.Model.Cost
import Verif.Model.Legacy
import Verif.Model.Tucker

/-! # The legacy dimension trees and the Tucker sweeps with a record of the index expressions they evaluate

Copies of the functions of `Model/Legacy.lean` and `Model/Tucker.lean` in which every CTF index expression is entered in a list
together with its size (as in `Model/Cost.lean`).  `Proofs/CostLegacy.lean` shows that the copies compute what the originals
compute.  The routines behind `SVD_solve` and `svd` (external kernels), pointwise sums and `Normalize` are not entered. -/

namespace Model

open Spec (Tag Work)

/-- The traversal common to `mttkrp_map_DT` (common.cxx:20-133) and `ttmc_map_DT` (als_Tucker.cxx:178-230). -/
def dtNodeC {τ : Type} (order : ℕ) (tree : LTree) (fromRoot : Key → CM τ) (fromParent : Key → τ → CM τ) :
    ℕ → Key → List (Key × τ) → CM (List (Key × τ))
  | 0, _, _ => fun _ => .error .diverge
  | fuel + 1, args, cache =>
    if (cache.lookup args).isSome then pure cache
    else if args.length = order / 2 ∨ args.length = order / 2 + 1 then do
      let T ← fromRoot args
      pure ((args, T) :: cache)
    else do
      let p := mapGet tree.parent args
      let cache ← (if (cache.lookup p).isNone then dtNodeC order tree fromRoot fromParent fuel p cache else pure cache)
      match cache.lookup p with
      | none => fun _ => .error .ub
      | some Tp => do
        let T ← fromParent args Tp
        pure ((args, T) :: cache)

variable {K : Type} [CommRing K]

/-- The contraction loops of `mttkrp_map_DT` (common.cxx:41-83 and 103-130); `tag j` is what pass `j` is for. -/
def sibLoopC (tag : ℕ → Tag) (p sb : Key) (lens0 : List ℕ) (R start : ℕ) (wat : ℕ → Label → Except Fault (Tensor K))
    (T0 : Tensor K) (seq0 : Key) : CM (Tensor K) := do
  let r ← (List.range sb.length).foldlM (fun (s : Tensor K × Key) (j : ℕ) => (do
    let c ← rd sb j
    let seqF := p.take start ++ p.drop (start + j + 1) ++ [star]
    let lens := lens0.take start ++ lens0.drop (start + j + 1) ++ [R]
    let Wj ← wat j c
    let T ← einsumC (tag j) lens seqF [(s.1, s.2), (Wj, [c, star])]
    pure (T, seqF) : CM (Tensor K × Key))) (T0, seq0)
  pure r.1

/-- First branch of `mttkrp_map_DT` (common.cxx:29-87): the first pass reads the input tensor. -/
def cpFromRootC (order : ℕ) (tree : LTree) (V : Tensor K) (W : List (Tensor K)) (args : Key) : CM (Tensor K) := do
  let W0 ← rd W 0
  let p := mapGet tree.parent args
  let sb := mapGet tree.sibling args
  let c0 ← rd sb 0
  if p.length ≠ order ∨ c0 < 97 ∨ (order : ℤ) ≤ c0 - 97 then fun _ => .error .ub
  else sibLoopC (fun j => if j = 0 then .input else .mttkrp) p sb V.lens (ncol W0) (c0 - 97).toNat
          (fun j _ => rd W ((c0 - 97).toNat + j)) V p

/-- Second branch of `mttkrp_map_DT` (common.cxx:92-131). -/
def cpFromParentC (tree : LTree) (W : List (Tensor K)) (args : Key) (Tp : Tensor K) : CM (Tensor K) := do
  let W0 ← rd W 0
  let p := mapGet tree.parent args
  let sb := mapGet tree.sibling args
  let c0 ← rd sb 0
  let p0 ← rd p 0
  if p.length + 1 ≠ Tp.lens.length ∨ c0 < p0 then fun _ => .error .ub
  else sibLoopC (fun _ => .mttkrp) p sb Tp.lens.dropLast (ncol W0) (c0 - p0).toNat (fun _ c => rd W (decode c)) Tp
          (p ++ [star])

/-- `mttkrp_map_DT` (common.cxx:20-133). -/
def cpMapDTC (order : ℕ) (tree : LTree) (V : Tensor K) (W : List (Tensor K)) (fuel : ℕ) (args : Key) (cache : Cache K) :
    CM (Cache K) :=
  dtNodeC order tree (cpFromRootC order tree V W) (cpFromParentC tree W) fuel args cache

/-- The matrix `M` of mode `i` (als_CP.cxx:231-284; 517-570). -/
def legacyMC (order : ℕ) (tree : LTree) (V : Tensor K) (W : List (Tensor K)) (cache : Cache K) (i : ℕ) :
    CM (Tensor K × Cache K) := do
  let a0 := letter i
  let p := mapGet tree.parent [a0]
  let sb := mapGet tree.sibling [a0]
  let cache ← (if (cache.lookup p).isNone then cpMapDTC order tree V W (order + 1) p cache else pure cache)
  let Wi ← rd W i
  let p0 ← rd p 0
  let p1 ← rd p 1
  match cache.lookup p with
  | none => fun _ => .error .ub
  | some Tp =>
    if sb.length = 1 then do
      let c := if p0 = a0 then p1 else p0
      let Wc ← rd W (decode c)
      let M ← einsumC .mttkrp [nrow Wi, ncol Wi] [a0, star] [(Tp, [p0, p1, star]), (Wc, [c, star])]
      pure (M, cache)
    else do
      let p2 ← rd p 2
      let c1 := if p0 = a0 then p1 else p0
      let c2 := if p0 = a0 then p2 else p1
      let W1 ← rd W (decode c1)
      let W2 ← rd W (decode c2)
      let M ← einsumC .mttkrp [nrow Wi, ncol Wi] [a0, star]
        [(Tp, [p0, p1, p2, star]), (W1, [c1, star]), (W2, [c2, star])]
      pure (M, cache)

/-- Update of mode `i` (als_CP.cxx:210-302). -/
def legacyUpdateC (order rank : ℕ) (lam : K) (solve : Spec.Solver K) (tree : LTree) (V : Tensor K)
    (F : List (Tensor K)) (s : Fac K × Cache K) (i : ℕ) : CM (Fac K × Cache K) := do
  let r ← legacyMC order tree V s.1.W s.2 i
  let S ← gramSC (swapIdx order i) rank lam s.1.W
  let Fi ← rd F i
  let M ← zipT (· + ·) r.1 Fi
  let f ← modeTailC solve s.1 i M S
  pure (f, r.2)

/-- The updates of one sweep of `alsCP_DT`, before `Normalize` (als_CP.cxx:207-303). -/
def legacyUpdatesC (order rank : ℕ) (lam : K) (solve : Spec.Solver K) (V : Tensor K) (F : List (Tensor K)) (f : Fac K) :
    CM (Fac K) := do
  let tree := constructDT 0 (order - 1) {}
  let r ← (List.range order).foldlM (legacyUpdateC order rank lam solve tree V F) (f, [])
  pure r.1

/-! ### Tucker -/

/-- Body of the loop of `TTMc` (als_Tucker.cxx:96-109).  The first pass that is not skipped (mode 1 if
`i = 0`, otherwise mode 0) reads the input tensor, which is then still the value of `V_temp`. -/
def ttmcStepC (order : ℕ) (W : List (Tensor K)) (i : ℤ) (s : Tensor K × Tensor K × List ℕ) (index : ℕ) :
    CM (Tensor K × Tensor K × List ℕ) :=
  if (index : ℤ) = i then pure s
  else do
    let Wi ← rd W index
    let lens := s.2.2.set index (ncol Wi)
    let Y ← einsumC (if index = (if i = 0 then 1 else 0) then .input else .mttkrp) lens ((allLetters order).set index lk)
      [(s.1, allLetters order), (Wi, [letter index, lk])]
    pure (Y, Y, lens)

/-- `TTMc(Y, V, W, i, dw)` (als_Tucker.cxx:76-110). -/
def ttmcC (Y0 V : Tensor K) (W : List (Tensor K)) (i : ℤ) : CM (Tensor K) := do
  let r ← (List.range V.lens.length).foldlM (ttmcStepC V.lens.length W i) (V, Y0, V.lens)
  pure r.2.1

/-- `unroll_tensor_contraction(T, i)` (common.cxx:205-223). -/
def unrollC (T : Tensor K) (i : ℕ) : CM (Tensor K) := do
  let arg ← ((List.range T.lens.length).mapM chr : Except Fault (List Label))
  let n ← rd T.lens i
  einsumC .update [n, n] [hat, ampersand] [(T, arg.set i hat), (T, arg.set i ampersand)]

/-- The contraction loop of `ttmc_map_DT` (als_Tucker.cxx:208-226). -/
def ttmLoopC (tag : ℕ → Tag) (order : ℕ) (W : List (Tensor K)) (sb : Key) (T0 : Tensor K) : CM (Tensor K) := do
  let r ← (List.range sb.length).foldlM (fun (s : Tensor K × List ℕ) (j : ℕ) => (do
    let c ← rd sb j
    let Wc ← rd W (decode c)
    if c < 97 ∨ (order : ℤ) ≤ c - 97 then fun _ => .error .ub
    else do
      let lens := s.2.set (c - 97).toNat (ncol Wc)
      let T ← einsumC (tag j) lens ((allLetters order).set (c - 97).toNat star) [(s.1, allLetters order), (Wc, [c, star])]
      pure (T, lens) : CM (Tensor K × List ℕ))) (T0, T0.lens)
  pure r.1

/-- `ttmc_map_DT` (als_Tucker.cxx:178-230): the first pass of a child of the root reads the input tensor. -/
def tuckMapDTC (order : ℕ) (tree : LTree) (V : Tensor K) (W : List (Tensor K)) (fuel : ℕ) (args : Key) (cache : Cache K) :
    CM (Cache K) :=
  dtNodeC order tree
    (fun args => ttmLoopC (fun j => if j = 0 then .input else .mttkrp) order W (mapGet tree.sibling args) V)
    (fun args Tp => ttmLoopC (fun _ => .mttkrp) order W (mapGet tree.sibling args) Tp) fuel args cache

/-- The tensor `Y` of mode `i` (als_Tucker.cxx:355-397; 574-614). -/
def tuckYC (order : ℕ) (tree : LTree) (V : Tensor K) (W : List (Tensor K)) (cache : Cache K) (i : ℕ) :
    CM (Tensor K × Cache K) := do
  let lens ← lensY order V W i
  let a0 := letter i
  let p := mapGet tree.parent [a0]
  let sb := mapGet tree.sibling [a0]
  let cache ← (if (cache.lookup p).isNone then tuckMapDTC order tree V W (order + 1) p cache else pure cache)
  let p0 ← rd p 0
  let p1 ← rd p 1
  match cache.lookup p with
  | none => fun _ => .error .ub
  | some Tp =>
    if sb.length = 1 then do
      let c := if a0 = p0 then p1 else p0
      let Wc ← rd W (decode c)
      let Y ← einsumC .mttkrp lens ((allLetters order).set (decode c).toNat star)
        [(Tp, allLetters order), (Wc, [c, star])]
      pure (Y, cache)
    else do
      let p2 ← rd p 2
      let c1 := if p0 = a0 then p1 else p0
      let c2 := if p0 = a0 then p2 else p1
      let W1 ← rd W (decode c1)
      let W2 ← rd W (decode c2)
      let Y ← einsumC .mttkrp lens (((allLetters order).set (decode c1).toNat star).set (decode c2).toNat hat)
        [(Tp, allLetters order), (W1, [c1, star]), (W2, [c2, hat])]
      pure (Y, cache)

/-- `core[seq] = Y_end[seq_Y_end] * W[V.order - 1][seq_W_end]` (als_Tucker.cxx:408). -/
def coreEndC (order : ℕ) (clens : List ℕ) (Yend Wl : Tensor K) : CM (Tensor K) :=
  einsumC .update clens (allLetters order)
    [(Yend, (allLetters order).set (order - 1) star), (Wl, [star, letter (order - 1)])]

/-- The new factor from `Y` (als_Tucker.cxx:152-160, 398-405). -/
noncomputable def factorOfC (k : Kern ℝ) (Y : Tensor ℝ) (i r : ℕ) : CM (Tensor ℝ) := do
  let M ← unrollC Y i
  let U := (k.svd M r).U
  if norm2 U < 0 then pure (negT U) else pure U

/-- Update of mode `i` in `alsTucker` (als_Tucker.cxx:143-161). -/
noncomputable def tuckUpdateC (k : Kern ℝ) (V : Tensor ℝ) (clens : List ℕ) (W : List (Tensor ℝ)) (i : ℕ) :
    CM (List (Tensor ℝ)) := do
  let Y ← ttmcC ⟨[], fun _ => 0⟩ V W i
  let r ← rd clens i
  let U ← factorOfC k Y i r
  pure (W.set i U)

/-- One sweep of `alsTucker` (als_Tucker.cxx:142-161). -/
noncomputable def tuckSweepC (k : Kern ℝ) (V : Tensor ℝ) (clens : List ℕ) (W : List (Tensor ℝ)) : CM (List (Tensor ℝ)) :=
  (List.range V.lens.length).foldlM (tuckUpdateC k V clens) W

/-- Update of mode `i` in `alsTucker_DT` (als_Tucker.cxx:345-406). -/
noncomputable def tuckUpdateDTC (order : ℕ) (tree : LTree) (k : Kern ℝ) (V : Tensor ℝ) (clens : List ℕ)
    (s : List (Tensor ℝ) × Cache ℝ × Tensor ℝ) (i : ℕ) : CM (List (Tensor ℝ) × Cache ℝ × Tensor ℝ) := do
  let r ← tuckYC order tree V s.1 s.2.1 i
  let n ← rd clens i
  let U ← factorOfC k r.1 i n
  pure (s.1.set i U, r.2, if i = order - 1 then r.1 else s.2.2)

/-- One sweep of `alsTucker_DT` (als_Tucker.cxx:342-408). -/
noncomputable def tuckSweepDTC (k : Kern ℝ) (V : Tensor ℝ) (clens : List ℕ) (W : List (Tensor ℝ)) :
    CM (List (Tensor ℝ) × Tensor ℝ) := do
  let order := V.lens.length
  let r ← (List.range order).foldlM (tuckUpdateDTC order (constructDT 0 (order - 1) {}) k V clens)
    (W, [], ⟨[], fun _ => 0⟩)
  let Wl ← rd r.1 ((order : ℤ) - 1)
  let C ← coreEndC order clens r.2.2 Wl
  pure (r.1, C)

end Model
