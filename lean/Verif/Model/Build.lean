import Verif.Model.KhatriRao
import Verif.Model.CPOpt
import Mathlib.Analysis.SpecialFunctions.Pow.Real

/-! # Reconstruction, residual and normalisation (common.cxx:135-197, 304-359, 644-689; src/CP.cxx:101-133) -/

namespace Model

variable {K : Type}

/-- The array `chars` of `build_V`, `build_V_vec`, `unroll_tensor_contraction`, `get_core_tensor` (common.cxx:138-139, 207-208,
305-306; als_Tucker.cxx:28-29): `'i', ..., 'z', '\0'`. -/
def charsTab : List Label := (List.range 18).map (fun (j : ℕ) => (105 + (j : ℤ) : ℤ)) ++ [0]

/-- `chars[j]`. -/
def chr (j : ℕ) : Except Fault Label := rd charsTab j

/-- Body of the first loop of `build_V` (common.cxx:146-175): `V_temp[c0..ci*] = V[c0..c(i-1)*] * W[i][ci*]`. -/
def buildStep [CommSemiring K] (W : List (Tensor K)) (V : Tensor K) (i : ℕ) : Except Fault (Tensor K) := do
  let rows ← (List.range (i + 1)).mapM fun (j : ℕ) => do pure (nrow (← rd W j))
  let W0 ← rd W 0
  let seqTemp ← (List.range (i + 1)).mapM chr
  let seq ← (List.range i).mapM chr
  let c ← chr i
  let Wi ← rd W i
  einsum (rows ++ [ncol W0]) (seqTemp ++ [star]) [(V, seq ++ [star]), (Wi, [c, star])]

/-- `build_V(V, W, order, dw)` (common.cxx:135-197). The array `seq` of the last contraction is uninitialised from position
`order` on; only its first `order` characters are listed here. -/
def buildV [CommSemiring K] (W : List (Tensor K)) (order : ℕ) : Except Fault (Tensor K) := do
  let V ← rd W 0
  let V ← (List.range' 1 (order - 1 - 1)).foldlM (buildStep W) V
  let rows ← (List.range order).mapM fun (j : ℕ) => do pure (nrow (← rd W j))
  let seqTemp ← (List.range order).mapM chr
  let seq := seqTemp.set (order - 1) star
  let c ← chr (order - 1)
  let Wl ← rd W ((order : ℤ) - 1)
  einsum rows seqTemp [(V, seq), (Wl, [c, star])]

/-- Length of a vector. -/
def vlen (v : Tensor K) : ℕ := v.lens.getD 0 0

/-- Body of the first loop of `build_V_vec` (common.cxx:313-341). -/
def buildVecStep [CommSemiring K] (W : List (Tensor K)) (V : Tensor K) (i : ℕ) : Except Fault (Tensor K) := do
  let rows ← (List.range (i + 1)).mapM fun (j : ℕ) => do pure (vlen (← rd W j))
  let seqTemp ← (List.range (i + 1)).mapM chr
  let seq ← (List.range i).mapM chr
  let c ← chr i
  let Wi ← rd W i
  einsum rows seqTemp [(V, seq), (Wi, [c])]

/-- `build_V_vec(V, W, order, dw)` (common.cxx:304-359). -/
def buildVVec [CommSemiring K] (W : List (Tensor K)) (order : ℕ) : Except Fault (Tensor K) := do
  let V ← rd W 0
  let V ← (List.range' 1 (order - 1 - 1)).foldlM (buildVecStep W) V
  let rows ← (List.range order).mapM fun (j : ℕ) => do pure (vlen (← rd W j))
  let seqTemp ← (List.range order).mapM chr
  let c ← chr (order - 1)
  let Wl ← rd W ((order : ℤ) - 1)
  einsum rows seqTemp [(V, seqTemp), (Wl, [c])]

/-- All multi-indices of a tensor with the given edge lengths. -/
def boxList : List ℕ → List (List ℕ)
  | [] => [[]]
  | n :: ns => (List.range n).flatMap fun x => (boxList ns).map (x :: ·)

/-- Sum of the squares of all entries: the square of `T.norm2()`. -/
def sqNorm [CommSemiring K] (T : Tensor K) : K := ((boxList T.lens).map fun idx => T.val idx ^ 2).sum

/-- `T.norm2()`. -/
noncomputable def norm2 (T : Tensor ℝ) : ℝ := Real.sqrt (sqNorm T)

/-- `V_build`, `diff_V[seq_V] = V[seq_V] - V_build[seq_V]` (src/CP.cxx:130-133; als_CP.cxx:181-186). -/
def diffV [CommRing K] (V : Tensor K) (W : List (Tensor K)) (order : ℕ) : Except Fault (Tensor K) := do
  let B ← buildV W order
  zipT (· - ·) V B

/-- `diffnorm_V` (src/CP.cxx:129-134; als_CP.cxx:181-186). -/
noncomputable def residual (V : Tensor ℝ) (W : List (Tensor ℝ)) (order : ℕ) : Except Fault ℝ := do
  let D ← diffV V W order
  pure (norm2 D)

/-- `update_gradnorm` (src/CP.cxx:101-107). -/
noncomputable def gradnorm (G : List (Tensor ℝ)) (order : ℕ) : Except Fault ℝ := do
  let s ← (List.range order).foldlM (fun s (i : ℕ) => do
    let g ← rd G i
    pure (s + norm2 g * norm2 g)) 0
  pure (Real.sqrt s)

/-- `W["ij"] = c * W["ij"]`. -/
def scaleT [CommSemiring K] (c : K) (W : Tensor K) : Tensor K :=
  ⟨W.lens, fun idx => if fits W.lens idx = true then c * W.val idx else 0⟩

/-- Body of the second loop of `Normalize` (common.cxx:685-688). -/
noncomputable def normalizeStep (norm : ℝ) (W : List (Tensor ℝ)) (i : ℕ) : Except Fault (List (Tensor ℝ)) := do
  let Wi ← rd W i
  pure (W.set i (scaleT (norm / norm2 Wi) Wi))

/-- `Normalize(W, N, dw)` (common.cxx:679-689). Division by zero is Lean's (`x / 0 = 0`); theorems assume nonzero norms. -/
noncomputable def normalize (W : List (Tensor ℝ)) (N : ℕ) : Except Fault (List (Tensor ℝ)) := do
  let norm ← (List.range N).foldlM (fun norm (i : ℕ) => do
    let Wi ← rd W i
    pure (norm * norm2 Wi)) 1
  let norm := norm ^ ((1 : ℝ) / N)
  (List.range N).foldlM (normalizeStep norm) W

end Model
