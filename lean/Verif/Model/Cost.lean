import Verif.Model.DT
import Verif.Model.PP
import Verif.Spec.Work

/-! # The optimizers with a record of the index expressions they evaluate

Copies of the functions of `Model/KhatriRao.lean`, `Model/CPOpt.lean`, `Model/DT.lean` and `Model/PP.lean` in which every
CTF index expression is entered in a list together with its size.  `Proofs/Cost.lean` shows that the copies compute exactly what the
originals compute, for all inputs, including the faults.  The routines behind `cholesky_solve` / `SVD_solve_mod` (external LAPACK
kernels and the index expressions on `rank × rank` matrices around them) and pointwise sums are not entered. -/

namespace Model

open Spec (Tag Work)

/-- Computations that may fail and enter the expressions they evaluate in a list. -/
abbrev CM (α : Type) := StateT (List Work) (Except Fault) α

section
variable {K : Type}

/-- Number of products an index expression adds up: one for every value of all labels that occur in it (CTF evaluates
`C[sc] = A₁[s₁] * A₂[s₂]` over the index space of the union of the labels). -/
def exprTerms (lensC : List ℕ) (sc : List Label) (ops : List (Tensor K × List Label)) : ℕ :=
  (((sc ++ ops.flatMap fun o => o.2).dedup).map (extent (sc.zip lensC ++ ops.flatMap opTable))).prod

end

variable {K : Type} [CommRing K]

/-- An index expression (as in `Model.einsum`), entered in the list. -/
def einsumC (t : Tag) (lensC : List ℕ) (sc : List Label) (ops : List (Tensor K × List Label)) : CM (Tensor K) :=
  fun log => do
    let T ← einsum lensC sc ops
    pure (T, log ++ [⟨t, exprTerms lensC sc ops, lensC.prod⟩])

/-- One pass of the loop of `KhatriRao_contract` (common.cxx:938-963, 967-993). -/
def krStepC (t : Tag) (W : List (Tensor K)) (index : List ℤ) (lensH : List ℕ) (n R : ℕ)
    (front : Tensor K) (seq : List Label) (j : ℕ) : CM (Tensor K) := do
  let ij ← rd index j
  let Wj ← rd W ij
  let seqW := [letterZ ij, lk]
  let seqF := (index.drop (j + 1)).map letterZ ++ [lk]
  let lensV := ((lensH.take (n - 1)).drop j) ++ [R]
  einsumC t lensV seqF [(front, seq), (Wj, seqW)]

/-- `KhatriRao_contract` (common.cxx:931-997). -/
def krContractC (Mlens : List ℕ) (V : Tensor K) (W : List (Tensor K)) (index : List ℤ)
    (lensH : List ℕ) : CM (Tensor K) := do
  let n := V.lens.length
  let W0 ← rd W 0
  let R := ncol W0
  let first ← krStepC .input W index lensH n R V ((List.range n).map letter) 0
  let last ← (List.range' 1 (n - 2)).foldlM (fun front j =>
    krStepC .mttkrp W index lensH n R front ((index.drop j).map letterZ ++ [lk]) j) first
  einsumC .mttkrp Mlens [li, lj] [(last, [li, lj])]

/-- The MTTKRP part of `CPSimpleOptimizer::step` for mode `i` (cp_simple_optimizer.cxx:27-47). -/
def simpleMC (order : ℕ) (V : Tensor K) (W : List (Tensor K)) (i : ℕ) : CM (Tensor K) := do
  let seqV := swapChar ((List.range order).map letter) i (order - 1)
  let index := seqV.map decode
  let Wi ← rd W i
  let lensH ← ((index.take (order - 1)).mapM fun z => do
    let M ← rd W z
    pure (nrow M) : Except Fault (List ℕ))
  krContractC [nrow Wi, ncol Wi] V W index (lensH ++ [ncol Wi])

/-- The matrix `S` of the normal equations (cp_als_optimizer.cxx:32-37; als_CP.cxx:286-291). -/
def gramSC (index : List ℕ) (rank : ℕ) (lam : K) (W : List (Tensor K)) : CM (Tensor K) := do
  let i0 ← rd index 0
  let W0 ← rd W i0
  let S0 ← einsumC .update [rank, rank] [li, lj] [(W0, [lk, li]), (W0, [lk, lj])]
  let S1 ← (index.drop 1).foldlM (fun S (m : ℕ) => do
    let Wm ← rd W m
    einsumC .update [rank, rank] [li, lj] [(S, [li, lj]), (Wm, [lk, li]), (Wm, [lk, lj])]) S0
  zipT (· + ·) S1 (regul rank lam)

/-- Gradient and solve (cp_simple_optimizer.cxx:48-51; als_CP.cxx:295-297). -/
def modeTailC (solve : Spec.Solver K) (f : Fac K) (m : ℕ) (M S : Tensor K) : CM (Fac K) := do
  let Wm ← rd f.W m
  let WS ← einsumC .update M.lens [li, lj] [(Wm, [li, lk]), (S, [lk, lj])]
  let g ← zipT (fun a b => -a + b) M WS
  pure ⟨f.W.set m (solveT solve M S), f.G.set m g⟩

/-- `update_S`, gradient and solve of one mode (cp_als_optimizer.cxx:20-38; cp_simple_optimizer.cxx:47-51;
cp_dt_optimizer.cxx:223-229; cp_msdt_optimizer.cxx:172-177). -/
def updateModeC (order rank : ℕ) (lam : K) (solve : Spec.Solver K) (f : Fac K) (m : ℕ)
    (M : Tensor K) : CM (Fac K) := do
  let S ← gramSC (othersOf order m) rank lam f.W
  modeTailC solve f m M S

/-- `CPSimpleOptimizer::step` (cp_simple_optimizer.cxx:22-55). -/
def simpleStepC (order rank : ℕ) (lam : K) (solve : Spec.Solver K) (V : Tensor K) (f : Fac K) : CM (Fac K) :=
  (List.range order).foldlM (fun f i => do
    let M ← simpleMC order V f.W i
    updateModeC order rank lam solve f i M) f

/-- The contraction of `mttkrp_map_init` (cp_dt_optimizer.cxx:125-160; cp_msdt_optimizer.cxx:107-142). -/
def topTC (order : ℕ) (V : Tensor K) (W : List (Tensor K)) (left : ℕ) : CM (Tensor K) := do
  let seqInit := (indexesOf order left).map letter ++ [star]
  let seqMatrix := [letter left, star]
  let lens ← lensInit V W seqInit
  let Wl ← rd W left
  einsumC .input lens seqInit [(V, (List.range order).map letter), (Wl, seqMatrix)]

/-- `mttkrp_map_init`, after `mttkrp_map.clear()` (cp_dt_optimizer.cxx:125-160, 198-201). -/
def mapInitC (order : ℕ) (V : Tensor K) (W : List (Tensor K)) (left : ℕ) : CM (Cache K) := do
  let T ← topTC order V W left
  pure [(topKey order, T)]

/-- `mttkrp_map_DT` (cp_dt_optimizer.cxx:161-185; cp_msdt_optimizer.cxx:144-170). -/
def mttkrpMapDTC (tree : Tree) (indexes : List ℕ) (V : Tensor K) (W : List (Tensor K)) :
    ℕ → Key → Cache K → CM (Cache K)
  | 0, _, _ => fun _ => .error .diverge
  | fuel + 1, key, cache => do
    let parent := mapGet tree.parent key
    let cache ← (if (cache.lookup parent).isNone then
        mttkrpMapDTC tree indexes V W fuel parent cache
      else pure cache)
    let matIdx := mapGet tree.cidx key
    let c0 ← rd matIdx 0
    let lens ← lensNode V W indexes key
    let m ← rd indexes (decode c0)
    let Wm ← rd W m
    match cache.lookup parent with
    | none => fun _ => .error .ub
    | some Tp => do
      let T ← einsumC .mttkrp lens key [(Tp, parent), (Wm, matIdx)]
      pure ((key, T) :: cache)

/-- First half of the loop body of `step` (cp_dt_optimizer.cxx:216-224; cp_msdt_optimizer.cxx:187-195). -/
def treeMC (order : ℕ) (tree : Tree) (V : Tensor K) (indexes : List ℕ) (W : List (Tensor K))
    (cache : Cache K) (i : ℕ) : CM (Tensor K × Cache K) := do
  let key := vec2str [i]
  let cache ← (if (cache.lookup key).isNone then
      mttkrpMapDTC tree indexes V W (order + 1) key cache
    else pure cache)
  match cache.lookup key with
  | none => fun _ => .error .ub
  | some M => pure (M, cache)

/-- The loop body of the DT and MSDT optimizers (cp_dt_optimizer.cxx:207-233; cp_msdt_optimizer.cxx:184-205). -/
def treeUpdateC (order rank : ℕ) (lam : K) (solve : Spec.Solver K) (tree : Tree) (V : Tensor K)
    (indexes : List ℕ) (s : Fac K × Cache K) (i : ℕ) : CM (Fac K × Cache K) := do
  let r ← treeMC order tree V indexes s.1.W s.2 i
  let m ← rd indexes i
  let t ← updateModeC order rank lam solve s.1 m r.1
  pure (t, r.2)

/-- `CPDTOptimizer::step` (cp_dt_optimizer.cxx:187-237). -/
def dtStepC (order rank : ℕ) (lam : K) (solve : Spec.Solver K) (V : Tensor K)
    (s : DTState × Fac K) : CM (DTState × Fac K) := do
  let o := s.1
  let indexes := if o.first then o.indexes1 else o.indexes2
  let left := if o.first then o.left1 else o.left2
  let cache ← mapInitC order V s.2.W left
  let r ← (dtPositions indexes.length o.special o.first).foldlM
    (treeUpdateC order rank lam solve o.tree V indexes) (s.2, cache)
  pure ({ o with first := !o.first }, r.1)

/-- `CPMSDTOptimizer::step` (cp_msdt_optimizer.cxx:172-208). -/
def msdtStepC (order rank : ℕ) (lam : K) (solve : Spec.Solver K) (V : Tensor K)
    (s : MSDTState × Fac K) : CM (MSDTState × Fac K) := do
  let left := (s.1.left + order - 1) % order
  let indexes := indexesOf order left
  let cache ← mapInitC order V s.2.W left
  let r ← (List.range indexes.length).foldlM
    (treeUpdateC order rank lam solve s.1.tree V indexes) (s.2, cache)
  pure (⟨left, indexes, s.1.tree⟩, r.1)

/-- `n` consecutive calls of a step. -/
def iterC {σ : Type} (step : σ → CM σ) : ℕ → σ → CM σ
  | 0, s => pure s
  | n + 1, s => do
    let s ← step s
    iterC step n s

/-! ### Pairwise perturbation -/

/-- Level 1 of `Build_mttkrp_map` (als_CP.cxx:360-382). -/
def ppFromRootC (same : Bool) (N : ℕ) (V : Tensor K) (W : List (Tensor K)) (seq : Key) : CM (Tensor K) := do
  let s1 ← stringbuilder N seq
  let s2 ← stringbuilder0 same N
  let c ← rd seq 0
  let lens ← lensInit V W s1
  let Wc ← rd W (decode c)
  einsumC .input lens s1 [(V, s2), (Wc, [c, star])]

/-- Other levels of `Build_mttkrp_map` (als_CP.cxx:386-408). -/
def ppFromParentC (N : ℕ) (V : Tensor K) (W : List (Tensor K)) (seq : Key) (Tp : Tensor K) : CM (Tensor K) := do
  let s1 ← stringbuilder N seq
  let s2 ← stringbuilder N seq.dropLast
  let c ← rd seq ((seq.length : ℤ) - 1)
  let lens ← lensInit V W s1
  let Wc ← rd W (decode c)
  einsumC .mttkrp lens s1 [(Tp, s2), (Wc, [c, star])]

/-- The recursion of `Build_mttkrp_map` (als_CP.cxx:352-409). -/
def buildNodeC {τ : Type} (fromRoot : Key → CM τ) (fromParent : Key → τ → CM τ) (seq : Key)
    (cache : List (Key × τ)) : CM (List (Key × τ)) :=
  if seq.length = 1 then do
    let T ← fromRoot seq
    pure ((seq, T) :: cache)
  else if h : seq.length = 0 ∨ 8 < seq.length then fun _ => .error .ub
  else do
    let cache ← (if (cache.lookup seq.dropLast).isNone then buildNodeC fromRoot fromParent seq.dropLast cache
      else pure cache)
    match cache.lookup seq.dropLast with
    | none => fun _ => .error .ub
    | some Tp => do
      let T ← fromParent seq Tp
      pure ((seq, T) :: cache)
termination_by seq.length
decreasing_by simp; omega

/-- `Build_mttkrp_map` (als_CP.cxx:352-409). -/
def buildMttkrpMapC (same : Bool) (N : ℕ) (V : Tensor K) (W : List (Tensor K)) (seq : Key) (cache : Cache K) :
    CM (Cache K) :=
  buildNodeC (ppFromRootC same N V W) (ppFromParentC N V W) seq cache

/-- Construction of the PP operators at the start of a PP phase (als_CP.cxx:671-690). -/
def ppOperatorsC (same : Bool) (N : ℕ) (V : Tensor K) (W : List (Tensor K)) : CM (Cache K) :=
  (ppKeys N).foldlM (fun cache seq => buildMttkrpMapC same N V W seq cache) []

/-- `M += A * B` (als_CP.cxx:768, 776). -/
def accumC (M : Tensor K) (sc : Key) (ops : List (Tensor K × Key)) : CM (Tensor K) := do
  let T ← einsumC .mttkrp M.lens sc ops
  zipT (· + ·) M T

/-- The contribution of `dW[j]` to `M` of mode `i` (als_CP.cxx:761-777). -/
def ppContribC (N : ℕ) (ops : Cache K) (dW : List (Tensor K)) (i : ℕ) (M : Tensor K) (j : ℕ) : CM (Tensor K) := do
  let dWj ← rd dW j
  if j < i then
    match ops.lookup (exceptTwo (allLetters N) j i) with
    | none => fun _ => .error .ub
    | some T => accumC M [lj, lk] [(T, [li, lj, lk]), (dWj, [li, lk])]
  else
    match ops.lookup (exceptTwo (allLetters N) i j) with
    | none => fun _ => .error .ub
    | some T => accumC M [li, lk] [(T, [li, lj, lk]), (dWj, [lj, lk])]

/-- The matrix `M` of mode `i` in `alsCP_PP_sub` (als_CP.cxx:752-777). -/
def ppMC (N : ℕ) (ops : Cache K) (dW : List (Tensor K)) (i : ℕ) : CM (Tensor K) := do
  match ops.lookup (exceptOne (allLetters N) i) with
  | none => fun _ => .error .ub
  | some M0 => (List.range i ++ List.range' (i + 1) (N - (i + 1))).foldlM (ppContribC N ops dW i) M0

/-- Update of mode `i` in `alsCP_PP_sub` (als_CP.cxx:736-804). -/
def ppUpdateC {F : Type} [Field F] [DecidableEq F] (N rank : ℕ) (lam ratio : F) (k : Kern F) (ops : Cache F)
    (Winit : List (Tensor F)) (s : PPState F) (i : ℕ) : CM (PPState F) := do
  let M ← ppMC N ops s.dW i
  let S ← gramSC (swapIdx N i) rank lam s.W
  let Wi ← rd s.W i
  let WS ← einsumC .update M.lens [li, lj] [(Wi, [li, lk]), (S, [lk, lj])]
  let g ← zipT (fun a b => -a + b) M WS
  let Wi0 ← rd Winit i
  let r ← svdSolveMod k M Wi0 S ratio
  pure ⟨s.W.set i r.1, s.G.set i g, s.dW.set i r.2⟩

/-- The updates of one PP sweep (als_CP.cxx:736-813). -/
def ppUpdatesC {F : Type} [Field F] [DecidableEq F] (N rank : ℕ) (lam ratio : F) (k : Kern F) (ops : Cache F)
    (Winit : List (Tensor F)) (s : PPState F) : CM (PPState F) :=
  (List.range N).foldlM (ppUpdateC N rank lam ratio k ops Winit) s

end Model
