import Verif.Model.LowRank
import Mathlib.Algebra.Field.Basic

/-! # Linear solves (common.cxx:691-813) -/

namespace Model

variable {K : Type} [Field K]

/-- CTF's dense kernels, as unspecified functions (their contracts are hypotheses of the theorems):
`chol S` is the matrix `L` set by `S.cholesky(L)`; `tri B L lower from_left transp` is the matrix `X` set by
`B.solve_tri(L, X, lower, from_left, transp)`; `svd A k` are `U`, `s`, `VT` set by `A.svd(U, s, VT, k)`;
`qr A` is the factor `Q` set by `A.qr(Q, R)`. -/
structure Kern (K : Type) where
  chol : Tensor K → Tensor K
  tri : Tensor K → Tensor K → Bool → Bool → Bool → Tensor K
  svd : Tensor K → ℕ → LR K
  qr : Tensor K → Tensor K

/-- `cholesky_solve` (common.cxx:727-737); the result is the new `W`. -/
def choleskySolve (k : Kern K) (M S : Tensor K) : Except Fault (Tensor K) := do
  let L := k.chol S
  -- `T = L; T["ik"] = L["ij"] * L["kj"]`, overwritten by the next statement
  let _ ← einsum L.lens [li, lk] [(L, [li, lj]), (L, [lk, lj])]
  let T := k.tri M L true false true
  pure (k.tri T L true false false)

/-- `Transform<> inv([](double &d) { d = 1. / d; }); inv(s["i"])` (common.cxx:720-721). -/
def invVec (s : Tensor K) : Tensor K := ⟨s.lens, fun idx => if fits s.lens idx = true then 1 / s.val idx else 0⟩

/-- `SVD_solve` (common.cxx:710-725); the result is the new `W`, declared with edge lengths `Wlens`. -/
def svdSolve (k : Kern K) (Wlens : List ℕ) (M S : Tensor K) : Except Fault (Tensor K) := do
  let u := k.svd S (ncol S)
  let s := invVec u.s
  let Sr ← einsum S.lens [li, lj] [(u.VT, [lk, li]), (s, [lk]), (u.U, [lj, lk])]
  einsum Wlens [li, lj] [(M, [li, lk]), (Sr, [lk, lj])]

/-- `SVD_solve_mod` (common.cxx:739-758); the result is the new `W` and the new `dW`. -/
def svdSolveMod [DecidableEq K] (k : Kern K) (M Winit S : Tensor K) (ratio : K) :
    Except Fault (Tensor K × Tensor K) := do
  let W ← svdSolve k Winit.lens M S
  let dW ← zipT (fun a b => ratio * (a - b)) W Winit
  if ratio ≠ 1 then do
    let W ← zipT (· + ·) Winit dW
    pure (W, dW)
  else pure (W, dW)

/-- `matrixDot` (common.cxx:760-763). -/
def matrixDot (A B : Tensor K) : Except Fault (Tensor K) :=
  einsum [nrow A, ncol B] [li, lj] [(A, [li, lk]), (B, [lk, lj])]

/-- `randomized_svd` (common.cxx:691-708) with the random start `X0` as a parameter; `l`, `r` of the index strings are the
characters 108 and 114. -/
def randomizedSvd (k : Kern K) (X0 : Tensor K) (A : Tensor K) (r iter : ℕ) : Except Fault (LR K) := do
  let n := ncol A
  let Q ← (List.range iter).foldlM (fun Q _ => do
    let X ← einsum [n, r] [lj, 114] [(A, [li, lj]), (A, [li, 108]), (Q, [108, 114])]
    pure (k.qr X)) (k.qr X0)
  let B ← einsum [nrow A, r] [li, lj] [(A, [li, lk]), (Q, [lk, lj])]
  let u := k.svd B r
  let VT ← einsum [r, n] [li, lj] [(u.VT, [li, lk]), (Q, [lj, lk])]
  pure { u with VT := VT }

/-- `get_rankR_update_cholesky` (common.cxx:768-786). `X0` is the random start used if `random`. -/
def rankRUpdate (k : Kern K) (X0 : Tensor K) (R : ℕ) (M A gamma : Tensor K) (random : Bool) :
    Except Fault (LR K) := do
  let L := k.chol gamma
  let rhs ← matrixDot A gamma
  let rhs ← zipT (· - ·) M rhs
  let X := k.tri rhs L true false true
  let u ← (if random then randomizedSvd k X0 X R 1 else pure (k.svd X R))
  pure { u with VT := k.tri u.VT L true false false }

/-- `get_rankR_update_svd` (common.cxx:788-813); `sqrtinv` is `d ↦ 1/sqrt(d)`. -/
def rankRUpdateSvd (k : Kern K) (sqrtinv : K → K) (X0 : Tensor K) (R : ℕ) (M A gamma : Tensor K)
    (random : Bool) : Except Fault (LR K) := do
  let rhs ← matrixDot A gamma
  let rhs ← zipT (· - ·) M rhs
  let g := k.svd gamma (ncol gamma)
  let S : Tensor K := ⟨g.s.lens, fun idx => if fits g.s.lens idx = true then sqrtinv (g.s.val idx) else 0⟩
  let X ← einsum [nrow rhs, ncol rhs] [li, lk] [(S, [lk]), (rhs, [li, lj]), (g.U, [lj, lk])]
  let u ← (if random then randomizedSvd k X0 X R 1 else pure (k.svd X R))
  let VT ← einsum u.VT.lens [li, lk] [(u.VT, [li, lj]), (S, [lj]), (g.VT, [lj, lk])]
  pure { u with VT := VT }

/-- An `n × m` matrix as a CTF object. -/
def ofMat (n m : ℕ) (f : ℕ → ℕ → K) : Tensor K :=
  ⟨[n, m], fun idx => match idx with
    | [x, r] => Spec.clip n m f x r
    | _ => 0⟩

/-- The solver the optimizers of src/optimizer plug into the mode update: `cholesky_solve`. -/
def cholSolver (k : Kern K) : Spec.Solver K := fun n R M S =>
  match choleskySolve k (ofMat n R M) (ofMat R R S) with
  | .ok W => mat W
  | .error _ => fun _ _ => 0

/-- The low-rank routine the optimizers plug into the mode update (cp_dt_lr_optimizer.cxx:205-207,
cp_msdt_lr_optimizer.cxx:194-196): `get_rankR_update_cholesky` with update rank `q`; `X0` is the random start matrix of
`randomized_svd`, which may be different in every call. -/
def lrSolver (k : Kern K) (X0 : ℕ → ℕ → (ℕ → ℕ → K) → (ℕ → ℕ → K) → (ℕ → ℕ → K) → Tensor K) (q : ℕ) (random : Bool) :
    Spec.LowRank K := fun n R M A S =>
  match rankRUpdate k (X0 n R M A S) q (ofMat n R M) (ofMat n R A) (ofMat R R S) random with
  | .ok u => (mat u.U, fun a => u.s.val [a], mat u.VT)
  | .error _ => (fun _ _ => 0, fun _ => 0, fun _ _ => 0)

/-- The solver of the legacy code (als_CP.cxx:93, 297, 583): `SVD_solve`. -/
def svdSolver (k : Kern K) : Spec.Solver K := fun n R M S =>
  match svdSolve k [n, R] (ofMat n R M) (ofMat R R S) with
  | .ok W => mat W
  | .error _ => fun _ _ => 0

end Model
