import Verif.Model.Ctf

/-! # From CTF objects to the arrays of the specification; well-formed CP problems -/

namespace Model

variable {K : Type} {N : ℕ}

/-- The `N`-way array denoted by a tensor. -/
def arr (V : Tensor K) (N : ℕ) (idx : Fin N → ℕ) : K := V.val (List.ofFn idx)

/-- The matrix denoted by an order-2 tensor. -/
def mat (M : Tensor K) (x r : ℕ) : K := M.val [x, r]

/-- The factor matrices denoted by a C array of matrices. -/
def mats [Zero K] (W : List (Tensor K)) (j : Fin N) (x r : ℕ) : K :=
  match W[j.1]? with
  | some M => mat M x r
  | none => 0

/-- What `Decomposition::Init` asserts (src/decomposition.cxx:56-60): the tensor has the declared edge
lengths, there is one factor matrix per mode, with `dims j` rows and `R` columns. -/
structure Shaped (dims : Fin N → ℕ) (R : ℕ) (V : Tensor K) (W : List (Tensor K)) : Prop where
  lensV : V.lens = List.ofFn dims
  count : W.length = N
  lensW : ∀ (j : Fin N) (M : Tensor K), W[j.1]? = some M → M.lens = [dims j, R]

end Model
