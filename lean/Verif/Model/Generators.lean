import Verif.Model.Build

/-! # Test tensors and reshaping (common.cxx:272-302, 361-423, 462-642, 870-880) -/

namespace Model

variable {K : Type}

/-- Column-major global index of a CTF tensor: `g = i + j*m + k*m*n + ...` for edge lengths `m, n, ...`. -/
def gidx : List ℕ → List ℕ → ℕ
  | n :: ns, x :: xs => x + n * gidx ns xs
  | _, _ => 0

/-- A freshly declared tensor, zero everywhere. -/
def zeroT (K : Type) [Zero K] (lens : List ℕ) : Tensor K := ⟨lens, fun _ => 0⟩

/-- `T.write(n, inds, vals)`; `pairs` are the index/value pairs passed by all MPI ranks together. Values written to one
index are added up and replace the old entry; an index outside the tensor is undefined behaviour. -/
def writeT [AddCommMonoid K] (T : Tensor K) (pairs : List (ℕ × K)) : Except Fault (Tensor K) :=
  if pairs.all fun p => decide (p.1 < T.lens.prod) then
    .ok ⟨T.lens, fun idx =>
      if fits T.lens idx = true then
        if pairs.any fun p => decide (p.1 = gidx T.lens idx) then
          ((pairs.filter fun p => decide (p.1 = gidx T.lens idx)).map Prod.snd).sum
        else T.val idx
      else 0⟩
  else .error .ub

/-- The pairs written by MPI rank `rk` in `unit_tensor` (common.cxx:274-286). `int` and `int64_t` are unbounded; `s >= 1`
(for `s = 0` nothing is written). -/
def unitPairs [Zero K] [One K] (s rk : ℕ) : List (ℕ × K) :=
  (List.range s).flatMap fun column => (List.range s).map fun row =>
    (column * s * s + row * s + (row + column * (s - 1)) % s, if rk = 0 then 1 else 0)

/-- `unit_tensor(V, N, s, dw)` (common.cxx:272-289) on `np` MPI ranks. `N` is not used by the code. -/
def unitTensor [AddCommMonoid K] [One K] (np : ℕ) (V : Tensor K) (s : ℕ) : Except Fault (Tensor K) :=
  writeT V ((List.range np).flatMap fun rk => unitPairs s rk)

/-- `double x = A["i"] * B["i"]` (common.cxx:292-293, 298). -/
def dotT [CommSemiring K] (A B : Tensor K) : Except Fault K := do
  let T ← einsum [] [] [(A, [letter 8]), (B, [letter 8])]
  pure (T.val [])

/-- `Gram_Schmidt(A, B)` (common.cxx:291-295); the new value of `A`. Division by zero is Lean's; the theorem assumes `B`
nonzero. -/
def gramSchmidt [Field K] (A B : Tensor K) : Except Fault (Tensor K) := do
  let normA ← dotT B B
  let prod ← dotT A B
  zipT (fun a b => a - prod / normA * b) A B

/-- The string of the `n` letters from `'a' + a` on (e.g. common.cxx:486-489). -/
def letters (a n : ℕ) : List Label := (List.range' a n).map letter

/-- `M["ii"] = c` (common.cxx:466, 520, 595). -/
def setDiag [Zero K] (c : K) (M : Tensor K) : Tensor K :=
  ⟨M.lens, fun idx => if fits M.lens idx = true then (if idx.getD 0 0 = idx.getD 1 0 then c else M.val idx) else 0⟩

/-- The matrix `ident` (common.cxx:465-466). -/
def identMat (K : Type) [Zero K] [One K] (s : ℕ) : Tensor K := setDiag 1 (zeroT K [s, s])

/-- Loop body of `identitiy_tensor` (common.cxx:473-491). -/
def identStep [CommSemiring K] (s : ℕ) (T : Tensor K) (i : ℕ) : Except Fault (Tensor K) :=
  einsum (List.replicate (2 * i + 2) s) (letters 0 (2 * i + 2))
    [(T, letters 2 (2 * i)), (identMat K s, letters 0 2)]

/-- `identitiy_tensor(N, s, dw)` (common.cxx:462-494). The assignment `I = I_temp` replaces the declared tensor, so the
result has order `2 * (N / 2)`, and order 2 for `N < 2`. -/
def identTensor (K : Type) [CommSemiring K] (N s : ℕ) : Except Fault (Tensor K) :=
  (List.range' 1 (N / 2 - 1)).foldlM (identStep s) (identMat K s)

/-- The pairs written by MPI rank `rk` into `D` (common.cxx:507-516, 582-591). -/
def offDiagPairs [CommRing K] (s rk : ℕ) : List (ℕ × K) :=
  (List.range (s - 1)).map fun row => (row * s + row + 1, if rk = 0 then -1 else 0)

/-- The matrix `D`: `c = 1` in `laplacian_tensor` (common.cxx:577-595), `c = 2` in `random_laplacian_tensor`
(common.cxx:503-520). -/
def lapMat [CommRing K] (c : K) (np s : ℕ) : Except Fault (Tensor K) := do
  let D ← writeT (zeroT K [s, s]) ((List.range np).flatMap fun rk => offDiagPairs s rk)
  let Dt ← einsum [s, s] [letter 8, letter 9] [(D, [letter 9, letter 8])]
  let D ← zipT (fun a b => a + c * b) D Dt
  pure (setDiag 2 D)

/-- `V[seq] += A[..] * B[..] * ...`. -/
def accumT [CommSemiring K] (V : Tensor K) (sc : List Label) (ops : List (Tensor K × List Label)) :
    Except Fault (Tensor K) := do
  let T ← einsum V.lens sc ops
  zipT (· + ·) V T

/-- Body of the loop over the middle terms (common.cxx:551-568, 624-641). -/
def lapStep [CommRing K] (D : Tensor K) (N s : ℕ) (V : Tensor K) (k : ℕ) : Except Fault (Tensor K) := do
  let I1 ← identTensor K (2 * (k - 1)) s
  let I2 ← identTensor K (2 * (N / 2 - k)) s
  accumT V (letters 0 N) [(I1, letters 0 (2 * (k - 1))), (D, letters (2 * (k - 1)) 2),
    (I2, letters (2 * k) (2 * (N / 2) - 2 * k))]

/-- `laplacian_tensor(V, N, s, sparse_V, dw)` (`c = 1`, common.cxx:575-642) and `random_laplacian_tensor` (`c = 2`,
common.cxx:500-569) on `np` ranks; `s >= 1`. For `N < 2` the code declares arrays of length `<= 0` and writes before them. Sparsity is only storage. -/
def laplacianGen [CommRing K] (c : K) (np : ℕ) (V : Tensor K) (N s : ℕ) : Except Fault (Tensor K) := do
  if N < 2 then .error .ub
  else do
    let D ← lapMat c np s
    let I2 ← identTensor K (N - 2) s
    let V ← accumT V (letters 0 N) [(D, letters 0 2), (I2, letters 2 (N - 2))]
    let I1 ← identTensor K (N - 2) s
    let V ← accumT V (letters 0 N) [(I1, letters 0 (N - 2)), (D, letters (N - 2) 2)]
    (List.range' 2 (N / 2 - 2)).foldlM (lapStep D N s) V

/-- All index/value pairs of a tensor. -/
def allPairs (X : Tensor K) : List (ℕ × K) := (boxList X.lens).map fun idx => (gidx X.lens idx, X.val idx)

/-- `fold_unfold(X, Y)` (common.cxx:870-880), the new value of `Y`. `parts` lists, per MPI rank, what `X.read_local`
returned there; CTF's contract is that together they are `allPairs X` in some order. -/
def foldUnfold [AddCommMonoid K] (parts : List (List (ℕ × K))) (Y : Tensor K) : Except Fault (Tensor K) :=
  writeT Y parts.flatten

/-- A vector of length `n` filled by `fill_random` (common.cxx:379-380). -/
def vecT [Zero K] (n : ℕ) (r : ℕ → K) : Tensor K :=
  ⟨[n], fun idx => if fits [n] idx = true then r (idx.getD 0 0) else 0⟩

/-- `ip` of `collinearity`, and `nm1 * nm2` (common.cxx:298-300). -/
noncomputable def colParts (v w : Tensor ℝ) : Except Fault (ℝ × ℝ) := do
  let ip ← dotT v w
  pure (ip, norm2 v * norm2 w)

open Classical in
/-- `col < col_min || col > col_max` for `col = collinearity(v, w)` (common.cxx:297-302, 392). A vanishing norm makes `col`
NaN and both comparisons false. -/
noncomputable def colBad (cmin cmax : ℝ) (v w : Tensor ℝ) : Except Fault Bool := do
  let c ← colParts v w
  pure (decide (c.2 ≠ 0 ∧ (c.1 / c.2 < cmin ∨ cmax < c.1 / c.2)))

/-- The loop `for (; k < i; k++)` (common.cxx:387-397): does it stop early? -/
noncomputable def colScan (cmin cmax : ℝ) (v : Tensor ℝ) (prev : List (Tensor ℝ)) : Except Fault Bool :=
  match prev with
  | [] => .ok false
  | w :: ws => do
    if ← colBad cmin cmax v w then pure true else colScan cmin cmax v ws

/-- The `while` loop for `vec[i][j]` (common.cxx:384-402); `n` is `lens[j]`, `cnt` the number of `fill_random` calls so
far, `rnd c` the entries produced by the call number `c`, `prev` the vectors `vec[0..i-1][j]`. The first argument is fuel. -/
noncomputable def colResel (cmin cmax : ℝ) (rnd : ℕ → ℕ → ℝ) (n : ℕ) (prev : List (Tensor ℝ)) :
    ℕ → ℕ → Tensor ℝ → Except Fault (ℕ × Tensor ℝ)
  | 0, _, _ => .error .diverge
  | fuel + 1, cnt, v => do
    if ← colScan cmin cmax v prev then colResel cmin cmax rnd n prev fuel (cnt + 1) (vecT n (rnd cnt))
    else pure (cnt, v)

/-- The loop over `i` for one mode (common.cxx:383-403). `col` is `vec[0..R-1][j]`; position `0` is never re-drawn. The
state is the list of vectors already accepted. -/
noncomputable def colMode (cmin cmax : ℝ) (rnd : ℕ → ℕ → ℝ) (n fuel : ℕ) (st : ℕ × List (Tensor ℝ)) (v : Tensor ℝ) :
    Except Fault (ℕ × List (Tensor ℝ)) :=
  if st.2 = [] then .ok (st.1, [v])
  else do
    let r ← colResel cmin cmax rnd n st.2 fuel st.1 v
    pure (r.1, st.2 ++ [r.2])

/-- The loops over `j` and `i` (common.cxx:382-404); result: per mode the vectors `vec[0..R-1][j]`. Initially
`vec[i][j]` is filled by call number `i * dim + j` (common.cxx:374-381). -/
noncomputable def colVectors (cmin cmax : ℝ) (rnd : ℕ → ℕ → ℝ) (lens : List ℕ) (R fuel : ℕ) :
    Except Fault (ℕ × List (List (Tensor ℝ))) :=
  (List.range lens.length).foldlM (fun st (j : ℕ) => do
    let r ← ((List.range R).map fun i => vecT (lens.getD j 0) (rnd (i * lens.length + j))).foldlM
      (colMode cmin cmax rnd (lens.getD j 0) fuel) (st.1, [])
    pure (r.1, st.2 ++ [r.2])) (R * lens.length, [])

/-- One term of the sum (common.cxx:410-418); `vecs` are the vectors per mode, `dim = vecs.length`. -/
noncomputable def colTerm (R : ℕ) (vecs : List (List (Tensor ℝ))) (X : Tensor ℝ) (i : ℕ) : Except Fault (Tensor ℝ) := do
  let vs ← vecs.mapM fun col => rd col i
  let Xs ← buildVVec vs vecs.length
  zipT (fun a b => a + (0.2 + 0.6 / R * ((i : ℝ) + 1)) * b) X Xs

/-- `Gen_collinearity(lens, dim, R, col_min, col_max, dw)` (common.cxx:361-423). Simplification: `fill_random` is an
arbitrary stream `rnd`; `0.2 + 0.6 / R * (i + 1)` is exact. -/
noncomputable def genCollinearity (cmin cmax : ℝ) (rnd : ℕ → ℕ → ℝ) (lens : List ℕ) (R fuel : ℕ) :
    Except Fault (Tensor ℝ) := do
  let _ ← (List.range lens.length).mapM chr
  let v ← colVectors cmin cmax rnd lens R fuel
  (List.range R).foldlM (colTerm R v.2) (zeroT ℝ lens)

end Model
