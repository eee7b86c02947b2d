import Verif.Model.Ctf

/-! # Direct MTTKRP: `KhatriRao_contract` and `CPSimpleOptimizer::step` (common.cxx, cp_simple_optimizer.cxx) -/

namespace Model

variable {K : Type} [CommSemiring K]

/-- `(char)('a' + z)` for an `int z` (common.cxx:944, 951). -/
def letterZ (z : ℤ) : Label := (97 + z + 128) % 256 - 128

/-- `(int)(c - 'a')` (cp_simple_optimizer.cxx:36, common.cxx:1030). -/
def decode (c : Label) : ℤ := c - 97

/-- The label `'k'`. -/
def lk : Label := 107
/-- The label `'i'`. -/
def li : Label := 105
/-- The label `'j'`. -/
def lj : Label := 106

/-- `W.ncol` of a matrix. -/
def ncol (M : Tensor K) : ℕ := M.lens.getD 1 0
/-- `W.nrow` of a matrix. -/
def nrow (M : Tensor K) : ℕ := M.lens.getD 0 0

/-- One pass of the loop of `KhatriRao_contract` (common.cxx:967-993); with `j = 0` and `seqV` the
labels of `V`, it is also the initial contraction (common.cxx:938-963).
`n` is `V.order`, `R` is `K` of the code.  Note that the declared edge lengths are `lens_H[j..n-2]`, while
the labels are those of `index[j+1..n-1]`. -/
def krStep (W : List (Tensor K)) (index : List ℤ) (lensH : List ℕ) (n R : ℕ)
    (front : Tensor K) (seq : List Label) (j : ℕ) : Except Fault (Tensor K) := do
  let ij ← rd index j
  let Wj ← rd W ij
  let seqW := [letterZ ij, lk]
  let seqF := (index.drop (j + 1)).map letterZ ++ [lk]
  let lensV := ((lensH.take (n - 1)).drop j) ++ [R]
  einsum lensV seqF [(front, seq), (Wj, seqW)]

/-- `KhatriRao_contract` (common.cxx:931-997).  `Mlens` are the edge lengths of the output `M`. -/
def krContract (Mlens : List ℕ) (V : Tensor K) (W : List (Tensor K)) (index : List ℤ)
    (lensH : List ℕ) : Except Fault (Tensor K) := do
  let n := V.lens.length
  let W0 ← rd W 0
  let R := ncol W0
  let first ← krStep W index lensH n R V ((List.range n).map letter) 0
  let last ← (List.range' 1 (n - 2)).foldlM (fun front j =>
    krStep W index lensH n R front ((index.drop j).map letterZ ++ [lk]) j) first
  einsum Mlens [li, lj] [(last, [li, lj])]

/-- `swap_char` (common.cxx:199-203). -/
def swapChar (s : List Label) (i j : ℕ) : List Label :=
  (s.set i (s.getD j 0)).set j (s.getD i 0)

/-- The MTTKRP part of `CPSimpleOptimizer::step` for mode `i` (cp_simple_optimizer.cxx:27-47; the same code is
in alsCP, als_CP.cxx:66-84, and gradient_CP, common.cxx:1020-1040).  `order` is the member `order`. -/
def simpleM (order : ℕ) (V : Tensor K) (W : List (Tensor K)) (i : ℕ) : Except Fault (Tensor K) := do
  let seqV := swapChar ((List.range order).map letter) i (order - 1)
  let index := seqV.map decode
  let Wi ← rd W i
  let lensH ← (index.take (order - 1)).mapM fun z => do
    let M ← rd W z
    pure (nrow M)
  krContract [nrow Wi, ncol Wi] V W index (lensH ++ [ncol Wi])

end Model
