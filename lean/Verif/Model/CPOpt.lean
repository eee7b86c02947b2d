import Verif.Model.KhatriRao
import Verif.Model.Problem
import Verif.Spec.Als

/-! # Common part of the CP optimizers (src/optimizer/cp_als_optimizer.cxx) and the plain step -/

namespace Model

variable {K : Type} [CommRing K]

/-- The index vector of `update_S` (cp_als_optimizer.cxx:22-31). -/
def othersOf (order i : ℕ) : List ℕ := List.range i ++ List.range' (i + 1) (order - (i + 1))

/-- `regul` (cp_als_optimizer.cxx:63-64): `regul["ii"] = lambda` on a fresh `r × r` matrix. -/
def regul (r : ℕ) (lam : K) : Tensor K :=
  ⟨[r, r], fun idx =>
    if fits [r, r] idx = true ∧ idx.getD 0 0 = idx.getD 1 0 then lam else 0⟩

/-- The matrix `S` of the normal equations from an index vector: `S["ij"] = W[index[0]]["ki"] * W[index[0]]["kj"]`,
`S["ij"] = S["ij"] * W[m]["ki"] * W[m]["kj"]` for the others, `S["ij"] += regul["ij"]` (cp_als_optimizer.cxx:32-37;
als_CP.cxx:286-291).  `S` was allocated as `rank × rank` (cp_als_optimizer.cxx:14; als_CP.cxx:159). -/
def gramS (index : List ℕ) (rank : ℕ) (lam : K) (W : List (Tensor K)) : Except Fault (Tensor K) := do
  let i0 ← rd index 0
  let W0 ← rd W i0
  let S0 ← einsum [rank, rank] [li, lj] [(W0, [lk, li]), (W0, [lk, lj])]
  let S1 ← (index.drop 1).foldlM (fun S (m : ℕ) => do
    let Wm ← rd W m
    einsum [rank, rank] [li, lj] [(S, [li, lj]), (Wm, [lk, li]), (Wm, [lk, lj])]) S0
  zipT (· + ·) S1 (regul rank lam)

/-- `CPOptimizer::update_S` (cp_als_optimizer.cxx:20-38). -/
def updateS (order rank : ℕ) (lam : K) (W : List (Tensor K)) (i : ℕ) : Except Fault (Tensor K) :=
  gramS (othersOf order i) rank lam W

/-- Factors and gradients, the data a step works on (`W`, `grad_W` of the optimizer). -/
structure Fac (K : Type) where
  W : List (Tensor K)
  G : List (Tensor K)

/-- `cholesky_solve(M, W, S)` / `SVD_solve(M, W, S)` (common.cxx:710-737) as a black box: the result is stored with the shape
of `M`; which matrix it is is given by the parameter `solve` (its algebra is treated separately, see
`Verif.Model.Solve`). -/
def solveT (solve : Spec.Solver K) (M S : Tensor K) : Tensor K :=
  ⟨[nrow M, ncol M], fun idx =>
    match idx with
    | [x, r] => Spec.clip (nrow M) (ncol M) (solve (nrow M) (ncol M) (mat M) (mat S)) x r
    | _ => 0⟩

/-- Gradient `-M + W S` and solve, once `M` and `S` are available (cp_simple_optimizer.cxx:48-51; als_CP.cxx:295-297). -/
def modeTail (solve : Spec.Solver K) (f : Fac K) (m : ℕ) (M S : Tensor K) : Except Fault (Fac K) := do
  let Wm ← rd f.W m
  let WS ← einsum M.lens [li, lj] [(Wm, [li, lk]), (S, [lk, lj])]
  let g ← zipT (fun a b => -a + b) M WS
  pure ⟨f.W.set m (solveT solve M S), f.G.set m g⟩

/-- The part common to all steps, after the MTTKRP `M` of mode `m` is available
(cp_simple_optimizer.cxx:47-51, cp_dt_optimizer.cxx:223-229, cp_msdt_optimizer.cxx:172-177):
`update_S`, gradient `-M + W S`, solve. -/
def updateMode (order rank : ℕ) (lam : K) (solve : Spec.Solver K) (f : Fac K) (m : ℕ)
    (M : Tensor K) : Except Fault (Fac K) := do
  let S ← updateS order rank lam f.W m
  modeTail solve f m M S

/-- `CPSimpleOptimizer::step` (cp_simple_optimizer.cxx:22-55); it returns 1 sweep. -/
def simpleStep (order rank : ℕ) (lam : K) (solve : Spec.Solver K) (V : Tensor K) (f : Fac K) :
    Except Fault (Fac K) :=
  (List.range order).foldlM (fun f i => do
    let M ← simpleM order V f.W i
    updateMode order rank lam solve f i M) f

end Model
