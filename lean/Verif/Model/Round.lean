import Verif.Model.Legacy
import Verif.Spec.Round

/-! # The tensor contractions in floating-point arithmetic

The other files of the model evaluate `C[..] = A[..] * B[..]` exactly.  Here the same functions take the evaluation of such
expressions (`ev`) and of elementwise sums (`zp`) as a parameter, so that it may round.  With exact evaluation they are the
functions of the other files (`*_exact` at the end). -/

namespace Model

/-- How CTF evaluates a contraction into a tensor of given edge lengths, and an elementwise operation. -/
structure Arith where
  ev : List ℕ → List Label → List (Tensor ℝ × List Label) → Except Fault (Tensor ℝ)
  zp : (ℝ → ℝ → ℝ) → Tensor ℝ → Tensor ℝ → Except Fault (Tensor ℝ)

/-- Exact evaluation. -/
def Arith.exact : Arith := ⟨einsum, zipT⟩

/-- Absolute values. -/
def absT (T : Tensor ℝ) : Tensor ℝ := ⟨T.lens, fun idx => |T.val idx|⟩

/-- The operands with the labels CTF reads. -/
def cutOps (ops : List (Tensor ℝ × List Label)) : List (Tensor ℝ × List Label) :=
  ops.map fun o => (o.1, o.2.take o.1.lens.length)

/-- The summed labels with their extents. -/
def sumTab (lens : List ℕ) (sc : List Label) (ops : List (Tensor ℝ × List Label)) : List (Label × ℕ) :=
  (contracted (sc.take lens.length) (cutOps ops)).map fun l => (l, extent ((cutOps ops).flatMap opTable) l)

/-- Number of summands of an entry of a contraction. -/
def nTerms (lens : List ℕ) (sc : List Label) (ops : List (Tensor ℝ × List Label)) : ℕ := ((sumTab lens sc ops).map Prod.snd).prod

/-- `±a ± b`: the elementwise operations of the code. -/
def SignedSum (f : ℝ → ℝ → ℝ) : Prop := ∃ s t : ℝ, |s| = 1 ∧ |t| = 1 ∧ ∀ a b, f a b = s * a + t * b

/-- Contract of the evaluation: contractions of at most three operands with at most `B` summands per entry are evaluated with an
error of at most `u` times the same contraction of the absolute values; elementwise operations have a relative error of at most `u`. -/
structure RoundOk (B : ℕ) (u : ℝ) (P : Arith) : Prop where
  ev_ok : ∀ {lens : List ℕ} {sc : List Label} {ops : List (Tensor ℝ × List Label)} {C A : Tensor ℝ}, ops ≠ [] → ops.length ≤ 3 →
    einsum lens sc ops = .ok C → nTerms lens sc ops ≤ B → einsum lens sc (ops.map fun o => (absT o.1, o.2)) = .ok A →
    ∃ C', P.ev lens sc ops = .ok C' ∧ C'.lens = C.lens ∧ ∀ idx, |C'.val idx - C.val idx| ≤ u * A.val idx
  zp_ok : ∀ {f : ℝ → ℝ → ℝ} {A B C : Tensor ℝ}, SignedSum f → zipT f A B = .ok C →
    ∃ C', P.zp f A B = .ok C' ∧ C'.lens = C.lens ∧ ∀ idx, |C'.val idx - C.val idx| ≤ u * |C.val idx|

/-- All assignments of values to the given labels. -/
def envs : List (Label × ℕ) → (Label → ℕ) → List (Label → ℕ)
  | [], env => [env]
  | (l, n) :: rest, env => (List.range n).flatMap fun x => envs rest (Function.update env l x)

/-- Contract of a floating-point evaluation with unit roundoff `eps`: every entry of a contraction is a floating-point value, with any
order of the operations, of its sum of products; elementwise operations are rounded once. -/
structure FlEval (eps : ℝ) (P : Arith) : Prop where
  ev_ok : ∀ {lens : List ℕ} {sc : List Label} {ops : List (Tensor ℝ × List Label)} {C : Tensor ℝ}, ops ≠ [] →
    einsum lens sc ops = .ok C → ∃ C', P.ev lens sc ops = .ok C' ∧ C'.lens = C.lens ∧ ∀ idx,
      if fits lens idx = true ∧ (sc.take lens.length).map (bindIdx (sc.take lens.length) idx) = idx then
        Spec.FlSum eps ((envs (sumTab lens sc ops) (bindIdx (sc.take lens.length) idx)).map fun env =>
          (((cutOps ops).map fun o => o.1.val (o.2.map env) : List ℝ) : Multiset ℝ) : List (Multiset ℝ)) (C'.val idx)
      else C'.val idx = 0
  zp_ok : ∀ {f : ℝ → ℝ → ℝ} {A B C : Tensor ℝ}, SignedSum f → zipT f A B = .ok C →
    ∃ C', P.zp f A B = .ok C' ∧ C'.lens = C.lens ∧ ∀ idx, |C'.val idx - C.val idx| ≤ eps * |C.val idx|

section DT

variable (P : Arith)

/-- As `topT` (cp_dt_optimizer.cxx:125-160; cp_msdt_optimizer.cxx:107-142). -/
def topTR (order : ℕ) (V : Tensor ℝ) (W : List (Tensor ℝ)) (left : ℕ) : Except Fault (Tensor ℝ) := do
  let seqInit := (indexesOf order left).map letter ++ [star]
  let seqMatrix := [letter left, star]
  let lens ← lensInit V W seqInit
  let Wl ← rd W left
  P.ev lens seqInit [(V, (List.range order).map letter), (Wl, seqMatrix)]

/-- As `mapInit`. -/
def mapInitR (order : ℕ) (V : Tensor ℝ) (W : List (Tensor ℝ)) (left : ℕ) : Except Fault (Cache ℝ) := do
  let T ← topTR P order V W left
  pure [(topKey order, T)]

/-- As `mttkrpMapDT` (cp_dt_optimizer.cxx:161-185; cp_msdt_optimizer.cxx:144-170). -/
def mttkrpMapDTR (tree : Tree) (indexes : List ℕ) (V : Tensor ℝ) (W : List (Tensor ℝ)) :
    ℕ → Key → Cache ℝ → Except Fault (Cache ℝ)
  | 0, _, _ => .error .diverge
  | fuel + 1, key, cache => do
    let parent := mapGet tree.parent key
    let cache ← (if (cache.lookup parent).isNone then
        mttkrpMapDTR tree indexes V W fuel parent cache
      else pure cache)
    let matIdx := mapGet tree.cidx key
    let c0 ← rd matIdx 0
    let lens ← lensNode V W indexes key
    let m ← rd indexes (decode c0)
    let Wm ← rd W m
    match cache.lookup parent with
    | none => .error .ub
    | some Tp => do
      let T ← P.ev lens key [(Tp, parent), (Wm, matIdx)]
      pure ((key, T) :: cache)

/-- As `treeM` (cp_dt_optimizer.cxx:216-224; cp_msdt_optimizer.cxx:187-195). -/
def treeMR (order : ℕ) (tree : Tree) (V : Tensor ℝ) (indexes : List ℕ) (W : List (Tensor ℝ))
    (cache : Cache ℝ) (i : ℕ) : Except Fault (Tensor ℝ × Cache ℝ) := do
  let key := vec2str [i]
  let cache ← (if (cache.lookup key).isNone then
      mttkrpMapDTR P tree indexes V W (order + 1) key cache
    else pure cache)
  match cache.lookup key with
  | none => .error .ub
  | some M => pure (M, cache)

/-- As `treeBody` (cp_dt_optimizer.cxx:207-233; cp_msdt_optimizer.cxx:184-205). -/
def treeBodyR {σ : Type} (order : ℕ) (tree : Tree) (V : Tensor ℝ) (indexes : List ℕ)
    (W : σ → List (Tensor ℝ)) (upd : σ → ℕ → ℕ → Tensor ℝ → Except Fault σ) (s : σ × Cache ℝ) (i : ℕ) :
    Except Fault (σ × Cache ℝ) := do
  let r ← treeMR P order tree V indexes (W s.1) s.2 i
  let m ← rd indexes i
  let t ← upd s.1 i m r.1
  pure (t, r.2)

/-- As `gramS` (cp_als_optimizer.cxx:32-37; als_CP.cxx:286-291). -/
def gramSR (index : List ℕ) (rank : ℕ) (lam : ℝ) (W : List (Tensor ℝ)) : Except Fault (Tensor ℝ) := do
  let i0 ← rd index 0
  let W0 ← rd W i0
  let S0 ← P.ev [rank, rank] [li, lj] [(W0, [lk, li]), (W0, [lk, lj])]
  let S1 ← (index.drop 1).foldlM (fun S (m : ℕ) => do
    let Wm ← rd W m
    P.ev [rank, rank] [li, lj] [(S, [li, lj]), (Wm, [lk, li]), (Wm, [lk, lj])]) S0
  P.zp (· + ·) S1 (regul rank lam)

/-- As `modeTail` (cp_simple_optimizer.cxx:48-51; als_CP.cxx:295-297).  The solver is any function, rounding or not. -/
def modeTailR (solve : Spec.Solver ℝ) (f : Fac ℝ) (m : ℕ) (M S : Tensor ℝ) : Except Fault (Fac ℝ) := do
  let Wm ← rd f.W m
  let WS ← P.ev M.lens [li, lj] [(Wm, [li, lk]), (S, [lk, lj])]
  let g ← P.zp (fun a b => -a + b) M WS
  pure ⟨f.W.set m (solveT solve M S), f.G.set m g⟩

/-- As `updateMode` (cp_simple_optimizer.cxx:47-51, cp_dt_optimizer.cxx:223-229, cp_msdt_optimizer.cxx:172-177). -/
def updateModeR (order rank : ℕ) (lam : ℝ) (solve : Spec.Solver ℝ) (f : Fac ℝ) (m : ℕ) (M : Tensor ℝ) :
    Except Fault (Fac ℝ) := do
  let S ← gramSR P (othersOf order m) rank lam f.W
  modeTailR P solve f m M S

/-- As `treeUpdate`. -/
def treeUpdateR (order rank : ℕ) (lam : ℝ) (solve : Spec.Solver ℝ) (tree : Tree) (V : Tensor ℝ)
    (indexes : List ℕ) (s : Fac ℝ × Cache ℝ) (i : ℕ) : Except Fault (Fac ℝ × Cache ℝ) :=
  treeBodyR P order tree V indexes (fun f : Fac ℝ => f.W)
    (fun f _ m M => updateModeR P order rank lam solve f m M) s i

/-- As `dtStep` (cp_dt_optimizer.cxx:187-237). -/
def dtStepR (order rank : ℕ) (lam : ℝ) (solve : Spec.Solver ℝ) (V : Tensor ℝ)
    (s : DTState × Fac ℝ) : Except Fault (DTState × Fac ℝ) := do
  let o := s.1
  let indexes := if o.first then o.indexes1 else o.indexes2
  let left := if o.first then o.left1 else o.left2
  let cache ← mapInitR P order V s.2.W left
  let r ← (dtPositions indexes.length o.special o.first).foldlM
    (treeUpdateR P order rank lam solve o.tree V indexes) (s.2, cache)
  pure ({ o with first := !o.first }, r.1)

/-- As `msdtStep` (cp_msdt_optimizer.cxx:172-208). -/
def msdtStepR (order rank : ℕ) (lam : ℝ) (solve : Spec.Solver ℝ) (V : Tensor ℝ)
    (s : MSDTState × Fac ℝ) : Except Fault (MSDTState × Fac ℝ) := do
  let left := (s.1.left + order - 1) % order
  let indexes := indexesOf order left
  let cache ← mapInitR P order V s.2.W left
  let r ← (List.range indexes.length).foldlM
    (treeUpdateR P order rank lam solve s.1.tree V indexes) (s.2, cache)
  pure (⟨left, indexes, s.1.tree⟩, r.1)

end DT

section Direct

variable (P : Arith)

/-- As `krStep` (common.cxx:938-963, 967-993). -/
def krStepR (W : List (Tensor ℝ)) (index : List ℤ) (lensH : List ℕ) (n R : ℕ)
    (front : Tensor ℝ) (seq : List Label) (j : ℕ) : Except Fault (Tensor ℝ) := do
  let ij ← rd index j
  let Wj ← rd W ij
  let seqW := [letterZ ij, lk]
  let seqF := (index.drop (j + 1)).map letterZ ++ [lk]
  let lensV := ((lensH.take (n - 1)).drop j) ++ [R]
  P.ev lensV seqF [(front, seq), (Wj, seqW)]

/-- As `krContract` (common.cxx:931-997). -/
def krContractR (Mlens : List ℕ) (V : Tensor ℝ) (W : List (Tensor ℝ)) (index : List ℤ)
    (lensH : List ℕ) : Except Fault (Tensor ℝ) := do
  let n := V.lens.length
  let W0 ← rd W 0
  let R := ncol W0
  let first ← krStepR P W index lensH n R V ((List.range n).map letter) 0
  let last ← (List.range' 1 (n - 2)).foldlM (fun front j =>
    krStepR P W index lensH n R front ((index.drop j).map letterZ ++ [lk]) j) first
  P.ev Mlens [li, lj] [(last, [li, lj])]

/-- As `simpleM` (cp_simple_optimizer.cxx:27-47; als_CP.cxx:66-84; common.cxx:1020-1040). -/
def simpleMR (order : ℕ) (V : Tensor ℝ) (W : List (Tensor ℝ)) (i : ℕ) : Except Fault (Tensor ℝ) := do
  let seqV := swapChar ((List.range order).map letter) i (order - 1)
  let index := seqV.map decode
  let Wi ← rd W i
  let lensH ← (index.take (order - 1)).mapM fun z => do
    let M ← rd W z
    pure (nrow M)
  krContractR P [nrow Wi, ncol Wi] V W index (lensH ++ [ncol Wi])

/-- As `simpleStep` (cp_simple_optimizer.cxx:22-55). -/
def simpleStepR (order rank : ℕ) (lam : ℝ) (solve : Spec.Solver ℝ) (V : Tensor ℝ) (f : Fac ℝ) :
    Except Fault (Fac ℝ) :=
  (List.range order).foldlM (fun f i => do
    let M ← simpleMR P order V f.W i
    updateModeR P order rank lam solve f i M) f

/-- As `buildStep` (common.cxx:146-175). -/
def buildStepR (W : List (Tensor ℝ)) (V : Tensor ℝ) (i : ℕ) : Except Fault (Tensor ℝ) := do
  let rows ← (List.range (i + 1)).mapM fun (j : ℕ) => do pure (nrow (← rd W j))
  let W0 ← rd W 0
  let seqTemp ← (List.range (i + 1)).mapM chr
  let seq ← (List.range i).mapM chr
  let c ← chr i
  let Wi ← rd W i
  P.ev (rows ++ [ncol W0]) (seqTemp ++ [star]) [(V, seq ++ [star]), (Wi, [c, star])]

/-- As `buildV` (common.cxx:135-197). -/
def buildVR (W : List (Tensor ℝ)) (order : ℕ) : Except Fault (Tensor ℝ) := do
  let V ← rd W 0
  let V ← (List.range' 1 (order - 1 - 1)).foldlM (buildStepR P W) V
  let rows ← (List.range order).mapM fun (j : ℕ) => do pure (nrow (← rd W j))
  let seqTemp ← (List.range order).mapM chr
  let seq := seqTemp.set (order - 1) star
  let c ← chr (order - 1)
  let Wl ← rd W ((order : ℤ) - 1)
  P.ev rows seqTemp [(V, seq), (Wl, [c, star])]

/-- As `diffV` (src/CP.cxx:130-133; als_CP.cxx:181-186). -/
def diffVR (V : Tensor ℝ) (W : List (Tensor ℝ)) (order : ℕ) : Except Fault (Tensor ℝ) := do
  let B ← buildVR P W order
  P.zp (· - ·) V B

/-- As `residual` (src/CP.cxx:129-134; als_CP.cxx:181-186).  The norm of the computed difference is taken exactly. -/
noncomputable def residualR (V : Tensor ℝ) (W : List (Tensor ℝ)) (order : ℕ) : Except Fault ℝ := do
  let D ← diffVR P V W order
  pure (norm2 D)

end Direct

section Legacy

variable (P : Arith)

/-- As `sibLoop` (common.cxx:41-83, 103-130). -/
def sibLoopR (p sb : Key) (lens0 : List ℕ) (R start : ℕ) (wat : ℕ → Label → Except Fault (Tensor ℝ)) (T0 : Tensor ℝ)
    (seq0 : Key) : Except Fault (Tensor ℝ) := do
  let r ← (List.range sb.length).foldlM (fun (s : Tensor ℝ × Key) (j : ℕ) => do
    let c ← rd sb j
    let seqF := p.take start ++ p.drop (start + j + 1) ++ [star]
    let lens := lens0.take start ++ lens0.drop (start + j + 1) ++ [R]
    let Wj ← wat j c
    let T ← P.ev lens seqF [(s.1, s.2), (Wj, [c, star])]
    pure (T, seqF)) (T0, seq0)
  pure r.1

/-- As `cpFromRoot` (common.cxx:29-87). -/
def cpFromRootR (order : ℕ) (tree : LTree) (V : Tensor ℝ) (W : List (Tensor ℝ)) (args : Key) :
    Except Fault (Tensor ℝ) := do
  let W0 ← rd W 0
  let p := mapGet tree.parent args
  let sb := mapGet tree.sibling args
  let c0 ← rd sb 0
  if p.length ≠ order ∨ c0 < 97 ∨ (order : ℤ) ≤ c0 - 97 then .error .ub
  else sibLoopR P p sb V.lens (ncol W0) (c0 - 97).toNat (fun j _ => rd W ((c0 - 97).toNat + j)) V p

/-- As `cpFromParent` (common.cxx:92-131). -/
def cpFromParentR (tree : LTree) (W : List (Tensor ℝ)) (args : Key) (Tp : Tensor ℝ) : Except Fault (Tensor ℝ) := do
  let W0 ← rd W 0
  let p := mapGet tree.parent args
  let sb := mapGet tree.sibling args
  let c0 ← rd sb 0
  let p0 ← rd p 0
  if p.length + 1 ≠ Tp.lens.length ∨ c0 < p0 then .error .ub
  else sibLoopR P p sb Tp.lens.dropLast (ncol W0) (c0 - p0).toNat (fun _ c => rd W (decode c)) Tp (p ++ [star])

/-- As `cpMapDT` (common.cxx:20-133). -/
def cpMapDTR (order : ℕ) (tree : LTree) (V : Tensor ℝ) (W : List (Tensor ℝ)) (fuel : ℕ) (args : Key) (cache : Cache ℝ) :
    Except Fault (Cache ℝ) :=
  dtNode order tree (cpFromRootR P order tree V W) (cpFromParentR P tree W) fuel args cache

/-- As `legacyM` (als_CP.cxx:231-284, 517-570). -/
def legacyMR (order : ℕ) (tree : LTree) (V : Tensor ℝ) (W : List (Tensor ℝ)) (cache : Cache ℝ) (i : ℕ) :
    Except Fault (Tensor ℝ × Cache ℝ) := do
  let a0 := letter i
  let p := mapGet tree.parent [a0]
  let sb := mapGet tree.sibling [a0]
  let cache ← (if (cache.lookup p).isNone then cpMapDTR P order tree V W (order + 1) p cache else pure cache)
  let Wi ← rd W i
  let p0 ← rd p 0
  let p1 ← rd p 1
  match cache.lookup p with
  | none => .error .ub
  | some Tp =>
    if sb.length = 1 then do
      let c := if p0 = a0 then p1 else p0
      let Wc ← rd W (decode c)
      let M ← P.ev [nrow Wi, ncol Wi] [a0, star] [(Tp, [p0, p1, star]), (Wc, [c, star])]
      pure (M, cache)
    else do
      let p2 ← rd p 2
      let c1 := if p0 = a0 then p1 else p0
      let c2 := if p0 = a0 then p2 else p1
      let W1 ← rd W (decode c1)
      let W2 ← rd W (decode c2)
      let M ← P.ev [nrow Wi, ncol Wi] [a0, star] [(Tp, [p0, p1, p2, star]), (W1, [c1, star]), (W2, [c2, star])]
      pure (M, cache)

/-- As `legacyUpdate` (als_CP.cxx:210-302). -/
def legacyUpdateR (order rank : ℕ) (lam : ℝ) (solve : Spec.Solver ℝ) (tree : LTree) (V : Tensor ℝ)
    (F : List (Tensor ℝ)) (s : Fac ℝ × Cache ℝ) (i : ℕ) : Except Fault (Fac ℝ × Cache ℝ) := do
  let r ← legacyMR P order tree V s.1.W s.2 i
  let S ← gramSR P (swapIdx order i) rank lam s.1.W
  let Fi ← rd F i
  let M ← P.zp (· + ·) r.1 Fi
  let f ← modeTailR P solve s.1 i M S
  pure (f, r.2)

/-- As `legacyUpdates` (als_CP.cxx:207-303). -/
def legacyUpdatesR (order rank : ℕ) (lam : ℝ) (solve : Spec.Solver ℝ) (V : Tensor ℝ) (F : List (Tensor ℝ)) (f : Fac ℝ) :
    Except Fault (Fac ℝ) := do
  let tree := constructDT 0 (order - 1) {}
  let r ← (List.range order).foldlM (legacyUpdateR P order rank lam solve tree V F) (f, [])
  pure r.1

end Legacy

/-! With exact evaluation these are the functions of `DT.lean`, `KhatriRao.lean`, `CPOpt.lean`, `Build.lean`, `Legacy.lean`. -/

theorem mttkrpMapDTR_exact (tree : Tree) (indexes : List ℕ) (V : Tensor ℝ) (W : List (Tensor ℝ)) (fuel : ℕ) :
    mttkrpMapDTR .exact tree indexes V W fuel = mttkrpMapDT tree indexes V W fuel := by
  induction fuel with
  | zero => rfl
  | succ fuel ih =>
    funext key cache
    have h : Arith.exact.ev = einsum := rfl
    unfold mttkrpMapDTR mttkrpMapDT
    rw [ih, h]
    refine bind_congr fun c => bind_congr fun _ => bind_congr fun _ => bind_congr fun _ => bind_congr fun _ => ?_
    cases List.lookup (mapGet tree.parent key) c <;> rfl

theorem treeUpdateR_exact (order rank : ℕ) (lam : ℝ) (solve : Spec.Solver ℝ) (tree : Tree) (V : Tensor ℝ) (indexes : List ℕ) :
    treeUpdateR .exact order rank lam solve tree V indexes = treeUpdate order rank lam solve tree V indexes := by
  funext s i
  unfold treeUpdateR treeUpdate treeBodyR treeBody treeMR treeM
  rw [mttkrpMapDTR_exact]
  congr 1
  refine bind_congr fun c => ?_
  cases List.lookup (vec2str [i]) c <;> rfl

theorem dtStepR_exact (order rank : ℕ) (lam : ℝ) (solve : Spec.Solver ℝ) (V : Tensor ℝ) :
    dtStepR .exact order rank lam solve V = dtStep order rank lam solve V := by
  funext s
  unfold dtStepR
  simp only [treeUpdateR_exact]
  rfl

theorem msdtStepR_exact (order rank : ℕ) (lam : ℝ) (solve : Spec.Solver ℝ) (V : Tensor ℝ) :
    msdtStepR .exact order rank lam solve V = msdtStep order rank lam solve V := by
  funext s
  unfold msdtStepR
  simp only [treeUpdateR_exact]
  rfl

theorem simpleStepR_exact (order rank : ℕ) (lam : ℝ) (solve : Spec.Solver ℝ) (V : Tensor ℝ) :
    simpleStepR .exact order rank lam solve V = simpleStep order rank lam solve V := rfl

theorem buildVR_exact (W : List (Tensor ℝ)) (order : ℕ) : buildVR .exact W order = buildV W order := rfl

theorem residualR_exact (V : Tensor ℝ) (W : List (Tensor ℝ)) (order : ℕ) : residualR .exact V W order = residual V W order := rfl

theorem legacyUpdateR_exact (order rank : ℕ) (lam : ℝ) (solve : Spec.Solver ℝ) (tree : LTree) (V : Tensor ℝ) (F : List (Tensor ℝ)) :
    legacyUpdateR .exact order rank lam solve tree V F = legacyUpdate order rank lam solve tree V F := by
  funext s i
  have h : legacyMR .exact order tree V s.1.W s.2 i = legacyM order tree V s.1.W s.2 i := by
    unfold legacyMR legacyM
    refine bind_congr fun c => bind_congr fun _ => bind_congr fun _ => bind_congr fun _ => ?_
    cases List.lookup (mapGet tree.parent [letter i]) c <;> rfl
  unfold legacyUpdateR legacyUpdate
  rw [h]
  rfl

theorem legacyUpdatesR_exact (order rank : ℕ) (lam : ℝ) (solve : Spec.Solver ℝ) (V : Tensor ℝ) (F : List (Tensor ℝ)) :
    legacyUpdatesR .exact order rank lam solve V F = legacyUpdates order rank lam solve V F := by
  funext f
  unfold legacyUpdatesR
  simp only [legacyUpdateR_exact]
  rfl

end Model
