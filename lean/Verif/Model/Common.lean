import Verif.Model.Solve

/-! # Stand-alone numerical routines of common.cxx that no driver calls
(`KhatriRaoProduct`, `apply_rankR_update`, `Gauss_Seidel`; all are exported by common.h) -/

namespace Model

section KRP

variable {K : Type} [CommSemiring K]

/-- One pass of the loop of `KhatriRaoProduct` (common.cxx:895-916). `R` is `K` of the code. -/
def krpStep (W : List (Tensor K)) (index : List ℤ) (lensH : List ℕ) (R : ℕ) (front : Tensor K) (j : ℕ) :
    Except Fault (Tensor K) := do
  let n := front.lens.length
  let seq := (List.range (n - 1)).map letter ++ [lk]
  let seqF := (List.range (n - 1)).map letter ++ [lj, lk]
  let lensW ← (List.range (j + 1)).mapM fun (m : ℕ) => rd lensH (m : ℤ)
  let ij ← rd index j
  let Wj ← rd W ij
  einsum (lensW ++ [R]) seqF [(front, seq), (Wj, [lj, lk])]

/-- `KhatriRaoProduct` (common.cxx:889-920).  `Hlens` are the edge lengths of the output argument `H_T` on entry; only their
number and the last one are used.  The result is the new value of `H_T`. -/
def khatriRaoProduct (Hlens : List ℕ) (W : List (Tensor K)) (index : List ℤ) (lensH : List ℕ) :
    Except Fault (Tensor K) := do
  let R ← rd Hlens ((Hlens.length : ℤ) - 1)
  let i0 ← rd index 0
  let front ← rd W i0
  (List.range' 1 (Hlens.length - 2)).foldlM (krpStep W index lensH R) front

/-- `apply_rankR_update` (common.cxx:817-837): new `U`, new `*cached_tensor`, new `A`.  `sigma` is unchanged.
A `mode` that is not a mode of `V` is `ub` (it writes beyond the labels). -/
def applyRankR (U sigma VT A V cached : Tensor K) (mode : ℕ) :
    Except Fault (Tensor K × Tensor K × Tensor K) :=
  let n := V.lens.length
  if n ≤ mode then .error .ub else do
  let seq := (List.range n).map letter
  let seq2 := seq.set mode (letter n)
  let U ← einsum U.lens [li, lj] [(U, [li, lj]), (sigma, [lj])]
  let D ← einsum cached.lens seq2 [(VT, [letter (n + 1), letter n]), (U, [letter mode, letter (n + 1)]), (V, seq)]
  let cached ← zipT (· + ·) cached D
  let A ← einsum A.lens [li, lj] [(U, [li, lk]), (VT, [lk, lj])]
  pure (U, cached, A)

end KRP

section GS

variable {K : Type} [Field K]

/-- `G_U` (common.cxx:843-848).  Assigning to a matrix declared `SH` (symmetric hollow) symmetrises, i.e. stores
`Γ_ij + Γ_ji` for `i < j`, which line 845 halves; copying it to a nonsymmetric tensor keeps the stored entries `i < j` only
(documented behaviour of CTF). -/
def strictUpper (G : Tensor K) : Tensor K :=
  ⟨G.lens, fun idx => match idx with
    | [a, b] => if fits G.lens [a, b] = true ∧ a < b then (1 / 2) * (G.val [a, b] + G.val [b, a]) else 0
    | _ => 0⟩

/-- One pass of the loop of `Gauss_Seidel` (common.cxx:863-865); the result is the new `A`. -/
def gsStep (F Gamma GLr : Tensor K) (A : Tensor K) : Except Fault (Tensor K) := do
  let AG ← einsum [nrow F, ncol F] [li, lj] [(A, [li, lk]), (Gamma, [lk, lj])]
  let M ← zipT (· - ·) F AG
  let D ← einsum A.lens [li, lj] [(M, [li, lk]), (GLr, [lj, lk])]
  zipT (· + ·) A D

/-- `Gauss_Seidel` (common.cxx:840-868); the result is the new `A`. -/
def gaussSeidel (k : Kern K) (A F Gamma : Tensor K) (maxits : ℕ) : Except Fault (Tensor K) := do
  let GL ← zipT (· - ·) Gamma (strictUpper Gamma)
  let u := k.svd GL (ncol GL)
  let p := invVec u.s
  let GLr ← einsum GL.lens [li, lj] [(u.VT, [lk, li]), (p, [lk]), (u.U, [lj, lk])]
  (List.range maxits).foldlM (fun A _ => gsStep F Gamma GLr A) A

end GS

end Model
