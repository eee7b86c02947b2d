import Verif.Model.Legacy
import Verif.Model.Tucker
import Verif.Model.KhatriRao

/-! # The loops of `alsCP`, `alsCP_DT` (als_CP.cxx:20-320), `alsTucker`, `alsTucker_DT` (als_Tucker.cxx:120-424)

The four drivers have the same control structure `for (iter = 0; iter <= maxiter; iter++) { test; sweep; }` and differ in the
schedule of the tests and in the computations. -/

namespace Model

/-- Arguments of the drivers; `alsCP` and `alsTucker` test every 100 iterations instead of every `resprint`. -/
structure LLArgs where
  tol : ℝ
  timelimit : ℝ
  maxiter : ℤ
  resprint : ℤ

/-- The computations of a driver on its variables `σ`; `M` is the type of the measured values. -/
structure LLHooks (σ : Type) (M : Type := ℝ) where
  /-- is there a test at this iteration -/
  checked : ℕ → Prop
  /-- the computations of the test: the quantity compared with `tol` and the residual -/
  check : σ → Except Fault (σ × M × M)
  /-- what follows a test that does not stop -/
  accept : σ → Except Fault σ
  /-- the body of the iteration -/
  sweep : σ → Except Fault σ

/-- What a driver leaves behind: `iter`, the data, the rows of the log (`[iter]`, measured quantity, `[diffV]`), whether the loop
was left by `break`, and the returned value. -/
structure LLEnd (σ : Type) (M : Type := ℝ) where
  iter : ℕ
  st : σ
  rows : List (ℕ × M × M)
  broke : Bool
  ret : Bool

open Classical in
/-- The `for` loop and the returned value (als_CP.cxx:45-114, 165-319; als_Tucker.cxx:134-175, 289-423).  `clock k` is the value of
`MPI_Wtime() - st_time` at the time test of iteration `k`.  The first argument is fuel; running out of it is `diverge`.
`iter % 0` is undefined behaviour.  Not modelled: console output, overflow of `int` (`maxiter = INT_MAX`). -/
noncomputable def llLoop {σ : Type} (a : LLArgs) (h : LLHooks σ) (clock : ℕ → ℝ) :
    ℕ → ℕ → σ → List (ℕ × ℝ × ℝ) → Except Fault (LLEnd σ)
  | 0, _, _, _ => .error .diverge
  | fuel + 1, iter, st, rows =>
    if (iter : ℤ) ≤ a.maxiter then
      if a.resprint = 0 then .error .ub
      else if h.checked iter then do
        let c ← h.check st
        let rows := rows ++ [(iter, c.2.1, c.2.2)]
        if c.2.1 < a.tol ∨ a.timelimit < clock iter then
          pure ⟨iter, c.1, rows, true, decide (¬ (iter : ℤ) = a.maxiter + 1)⟩
        else do
          let st ← h.accept c.1
          let st ← h.sweep st
          llLoop a h clock fuel (iter + 1) st rows
      else do
        let st ← h.sweep st
        llLoop a h clock fuel (iter + 1) st rows
    else .ok ⟨iter, st, rows, false, decide (¬ (iter : ℤ) = a.maxiter + 1)⟩

/-! ## `alsCP` -/

/-- The matrix `M` of mode `i` in `alsCP` and `gradient_CP` (als_CP.cxx:70-89; common.cxx:1020-1040).  The same as `simpleM`,
except that `lens_H` is taken from the edge lengths of `V`. -/
def directM {K : Type} [CommSemiring K] (order : ℕ) (V : Tensor K) (W : List (Tensor K)) (i : ℕ) : Except Fault (Tensor K) := do
  let seqV := swapChar ((List.range order).map letter) i (order - 1)
  let index := seqV.map decode
  let Wi ← rd W i
  let lensH ← (index.take (order - 1)).mapM fun z => rd V.lens z
  krContract [nrow Wi, ncol Wi] V W index (lensH ++ [ncol Wi])

/-- Body of the loop of `gradient_CP` (common.cxx:1020-1050): `grad_W[i] = -M + W[i] S`.  `S` has no regularisation: `gramS` with
`lam = 0` adds zeros. -/
def gradientStep {K : Type} [CommRing K] (order rank : ℕ) (V : Tensor K) (W G : List (Tensor K)) (i : ℕ) :
    Except Fault (List (Tensor K)) := do
  let M ← directM order V W i
  let S ← gramS (swapIdx order i) rank 0 W
  let Wi ← rd W i
  let WS ← einsum M.lens [li, lj] [(Wi, [li, lk]), (S, [lk, lj])]
  let g ← zipT (fun a b => -a + b) M WS
  pure (G.set i g)

/-- `gradient_CP(V, W, grad_W, dw)` (common.cxx:1009-1052). -/
def gradientCP {K : Type} [CommRing K] (order rank : ℕ) (V : Tensor K) (W G : List (Tensor K)) :
    Except Fault (List (Tensor K)) :=
  (List.range order).foldlM (gradientStep order rank V W) G

/-- Update of mode `i` in `alsCP` (als_CP.cxx:69-101). -/
def alsCPUpdate {K : Type} [CommRing K] (order rank : ℕ) (solve : Spec.Solver K) (V : Tensor K) (F : List (Tensor K))
    (W : List (Tensor K)) (i : ℕ) : Except Fault (List (Tensor K)) := do
  let M ← directM order V W i
  let S ← gramS (swapIdx order i) rank 0 W
  let Fi ← rd F i
  let M ← zipT (· + ·) M Fi
  pure (W.set i (solveT solve M S))

/-- The variables of `alsCP`: `W`, `grad_W`, `Fnorm`. -/
structure CPState where
  W : List (Tensor ℝ)
  G : List (Tensor ℝ)
  Fnorm : ℝ

/-- `Fnorm += F[i].norm2()` (als_CP.cxx:54-58). -/
noncomputable def fNorm (order : ℕ) (F : List (Tensor ℝ)) : Except Fault ℝ :=
  (List.range order).foldlM (fun s (i : ℕ) => do
    let f ← rd F i
    pure (s + norm2 f)) 0

open Classical in
/-- One sweep of `alsCP` (als_CP.cxx:68-104). -/
noncomputable def alsCPSweep (order rank : ℕ) (solve : Spec.Solver ℝ) (V : Tensor ℝ) (F : List (Tensor ℝ)) (s : CPState) :
    Except Fault CPState := do
  let W ← (List.range order).foldlM (alsCPUpdate order rank solve V F) s.W
  let W ← (if s.Fnorm = 0 then normalize W order else pure W)
  pure { s with W := W }

/-- The test of `alsCP` (als_CP.cxx:47-66).  `alsCP` computes no residual: the last component is 0. -/
noncomputable def alsCPCheck (order rank : ℕ) (V : Tensor ℝ) (F : List (Tensor ℝ)) (s : CPState) :
    Except Fault (CPState × ℝ × ℝ) := do
  let G ← gradientCP order rank V s.W s.G
  let P ← (List.range order).mapM fun (i : ℕ) => do
    let g ← rd G i
    let f ← rd F i
    zipT (· - ·) g f
  let p ← gradnorm P order
  let n ← fNorm order F
  pure (⟨s.W, G, n⟩, p, 0)

/-- The computations of `alsCP` (als_CP.cxx:45-104). -/
noncomputable def cpHooks (order rank : ℕ) (solve : Spec.Solver ℝ) (V : Tensor ℝ) (F : List (Tensor ℝ)) (maxiter : ℤ) :
    LLHooks CPState where
  checked iter := iter % 100 = 0 ∨ (iter : ℤ) = maxiter
  check s := alsCPCheck order rank V F s
  accept s := .ok s
  sweep s := alsCPSweep order rank solve V F s

/-- `alsCP(V, W, grad_W, F, tol, timelimit, maxiter, dw)` (als_CP.cxx:20-115). -/
noncomputable def alsCP (order rank : ℕ) (solve : Spec.Solver ℝ) (V : Tensor ℝ) (F : List (Tensor ℝ)) (tol timelimit : ℝ)
    (maxiter : ℤ) (clock : ℕ → ℝ) (fuel : ℕ) (W G : List (Tensor ℝ)) : Except Fault (LLEnd CPState) :=
  llLoop ⟨tol, timelimit, maxiter, 100⟩ (cpHooks order rank solve V F maxiter) clock fuel 0 ⟨W, G, 0⟩ []

/-! ## `alsCP_DT` -/

/-- The computations of `alsCP_DT` (als_CP.cxx:165-304).  The test reads the matrices `grad_W` as they are: those stored during
the last sweep, or those passed by the caller. -/
noncomputable def cpDTHooks (order rank : ℕ) (lam : ℝ) (solve : Spec.Solver ℝ) (V : Tensor ℝ) (F : List (Tensor ℝ))
    (a : LLArgs) : LLHooks (Fac ℝ) where
  checked iter := Int.tmod (iter : ℤ) a.resprint = 0 ∨ (iter : ℤ) = a.maxiter
  check f := do
    let g ← gradnorm f.G order
    let d ← residual V f.W order
    pure (f, g, d)
  accept f := .ok f
  sweep f := legacySweep order rank lam solve V F f

/-- `alsCP_DT(V, W, grad_W, F, tol, timelimit, maxiter, lambda, Plot_File, resprint, bench, dw)` (als_CP.cxx:127-320). -/
noncomputable def alsCPDT (order rank : ℕ) (lam : ℝ) (solve : Spec.Solver ℝ) (V : Tensor ℝ) (F : List (Tensor ℝ)) (a : LLArgs)
    (clock : ℕ → ℝ) (fuel : ℕ) (f : Fac ℝ) : Except Fault (LLEnd (Fac ℝ)) :=
  llLoop a (cpDTHooks order rank lam solve V F a) clock fuel 0 f []

/-! ## `alsTucker`, `alsTucker_DT` -/

/-- The variables of the Tucker drivers. -/
structure TuckState where
  W : List (Tensor ℝ)
  core : Tensor ℝ
  corePrev : Tensor ℝ

/-- `core_prev[seq] = core[seq]` (als_Tucker.cxx:146, 338). -/
noncomputable def keepCore (s : TuckState) : Except Fault TuckState := do
  let seq := allLetters s.core.lens.length
  let P ← einsum s.corePrev.lens seq [(s.core, seq)]
  pure { s with corePrev := P }

/-- The test of `alsTucker` (als_Tucker.cxx:137-147); it computes no residual: the last component is 0. -/
noncomputable def tuckCheckOnly (V : Tensor ℝ) (s : TuckState) : Except Fault (TuckState × ℝ × ℝ) := do
  let core ← ttmc s.core V s.W (-1)
  pure ({ s with core := core }, |norm2 core - norm2 s.corePrev|, 0)

/-- The computations of `alsTucker` (als_Tucker.cxx:134-165); `core.lens[i]` is read in every update. -/
noncomputable def tuckHooks (k : Kern ℝ) (V : Tensor ℝ) (maxiter : ℤ) : LLHooks TuckState where
  checked iter := (iter % 100 = 0 ∧ iter ≠ 0) ∨ (iter : ℤ) = maxiter
  check s := tuckCheckOnly V s
  accept s := keepCore s
  sweep s := do
    let W ← tuckSweep k V s.core.lens s.W
    pure { s with W := W }

/-- `alsTucker(V, core, W, tol, timelimit, maxiter, dw)` (als_Tucker.cxx:120-176). -/
noncomputable def alsTucker (k : Kern ℝ) (V : Tensor ℝ) (tol timelimit : ℝ) (maxiter : ℤ) (clock : ℕ → ℝ) (fuel : ℕ)
    (core : Tensor ℝ) (W : List (Tensor ℝ)) : Except Fault (LLEnd TuckState) :=
  llLoop ⟨tol, timelimit, maxiter, 100⟩ (tuckHooks k V maxiter) clock fuel 0 ⟨W, core, core⟩ []

/-- The computations of `alsTucker_DT` (als_Tucker.cxx:289-412). -/
noncomputable def tuckDTHooks (k : Kern ℝ) (V : Tensor ℝ) (a : LLArgs) : LLHooks TuckState where
  checked iter := (Int.tmod (iter : ℤ) a.resprint = 0 ∧ iter ≠ 0) ∨ iter = 1 ∨ (iter : ℤ) = a.maxiter
  check s := do
    let r ← tuckCheck V s.core s.corePrev s.W
    pure ({ s with core := r.1 }, r.2.1, r.2.2)
  accept s := keepCore s
  sweep s := do
    let r ← tuckSweepDT k V s.core.lens s.W
    pure { s with W := r.1, core := r.2 }

/-- `alsTucker_DT(V, core, W, tol, timelimit, maxiter, Plot_File, resprint, bench, dw)` (als_Tucker.cxx:240-424). -/
noncomputable def alsTuckerDT (k : Kern ℝ) (V : Tensor ℝ) (a : LLArgs) (clock : ℕ → ℝ) (fuel : ℕ) (core : Tensor ℝ)
    (W : List (Tensor ℝ)) : Except Fault (LLEnd TuckState) :=
  llLoop a (tuckDTHooks k V a) clock fuel 0 ⟨W, core, core⟩ []

end Model
