import Verif.Model.PPDriver
import Mathlib.Order.WithBot

/-! # Pairwise perturbation with partial updates (als_CP.cxx:835-1073) -/

namespace Model

/-- A relative perturbation `norm_dM / norm_M` of two nonnegative doubles: `none` is NaN (`0/0`), `some ⊤` is infinity. -/
abbrev Rel := Option (WithTop ℝ)

open Classical in
/-- `norm_dM / norm_M` (als_CP.cxx:1054). -/
noncomputable def relQuot (a b : ℝ) : Rel :=
  if b = 0 then (if a = 0 then none else some ⊤) else some ((a / b : ℝ) : WithTop ℝ)

/-- `v[i1] > v[i2]` (als_CP.cxx:841); false if one of them is NaN. -/
def relGt : Rel → Rel → Prop
  | some x, some y => y < x
  | _, _ => False

/-- The comparison is a strict weak ordering on the values (precondition of `std::sort`): "not greater" is transitive. -/
def StrictWeak (v : List Rel) : Prop := ∀ a ∈ v, ∀ b ∈ v, ∀ c ∈ v, relGt a c → relGt a b ∨ relGt b c

/-- Value number `i`. -/
def relAt (v : List Rel) (i : ℕ) : Rel := v.getD i none

open Classical in
/-- `sort_indexes` (als_CP.cxx:835-843).  `srt` stands for `std::sort` applied to `0, 1, ...`; calling it with a comparison
that is no strict weak ordering is undefined behaviour. -/
noncomputable def sortIndexes (srt : List Rel → List ℕ) (v : List Rel) : Except Fault (List ℕ) :=
  if StrictWeak v then .ok (srt v) else .error .ub

/-- Contract of `std::sort`: on admissible input the result is a permutation of the indices in which no element is
greater than an earlier one. -/
def SortSpec (srt : List Rel → List ℕ) : Prop :=
  ∀ v, StrictWeak v → (srt v).Perm (List.range v.length) ∧
    (srt v).Pairwise fun i j => ¬ relGt (relAt v j) (relAt v i)

/-- Conversion of a `double` to `int`: truncation towards zero. -/
noncomputable def truncR (x : ℝ) : ℤ := if 0 ≤ x then ⌊x⌋ else ⌈x⌉

/-- Variables of `alsCP_PP_partupdate_sub`. -/
structure PartState where
  W : List (Tensor ℝ)
  G : List (Tensor ℝ)
  dW : List (Tensor ℝ)
  dM : List (Tensor ℝ)
  M : List (Tensor ℝ)
  rel : List Rel

/-- Propagation of the displacement of mode `i` to the other modes (als_CP.cxx:1022-1042): `dM[j] += op(j,i) * dW[i]`. -/
def propagate (N : ℕ) (ops : Cache ℝ) (dW : List (Tensor ℝ)) (i : ℕ) (dM : List (Tensor ℝ)) :
    Except Fault (List (Tensor ℝ)) :=
  (List.range i ++ List.range' (i + 1) (N - (i + 1))).foldlM (fun (dM : List (Tensor ℝ)) (j : ℕ) => do
    let Dj ← rd dM j
    let D ← ppContrib N ops dW j Dj i
    pure (dM.set j D)) dM

/-- Update of mode `i` (als_CP.cxx:976-1046). -/
noncomputable def partUpdate (N rank : ℕ) (lam ratio : ℝ) (k : Kern ℝ) (ops : Cache ℝ) (Winit : List (Tensor ℝ))
    (s : PartState) (i : ℕ) : Except Fault PartState := do
  match ops.lookup (exceptOne (allLetters N) i) with
  | none => .error .ub
  | some M0 => do
    let Di ← rd s.dM i
    let M ← zipT (· + ·) M0 Di
    let S ← gramS (swapIdx N i) rank lam s.W
    let Wi ← rd s.W i
    let WS ← einsum M.lens [li, lj] [(Wi, [li, lk]), (S, [lk, lj])]
    let g ← zipT (fun a b => -a + b) M WS
    let Wi0 ← rd Winit i
    let r ← svdSolveMod k M Wi0 S ratio
    let dW := s.dW.set i r.2
    let dM ← propagate N ops dW i (s.dM.set i (zerosLike Di))
    pure { s with W := s.W.set i r.1, G := s.G.set i g, dW := dW, dM := dM, M := s.M.set i M }

/-- The updates of a sweep (als_CP.cxx:962-975): the first `update_size` entries of `sorted_indices`. -/
noncomputable def partUpdates (N rank : ℕ) (lam ratio : ℝ) (k : Kern ℝ) (ops : Cache ℝ) (Winit : List (Tensor ℝ))
    (sorted : List ℕ) (size : ℤ) (s : PartState) : Except Fault PartState :=
  (List.range size.toNat).foldlM (fun (s : PartState) (n : ℕ) => do
    let i ← rd sorted n
    partUpdate N rank lam ratio k ops Winit s i) s

/-- `W_relative_perturbe[i] = norm_dM / norm_M` (als_CP.cxx:1049-1055). -/
noncomputable def relatives (N : ℕ) (dM M : List (Tensor ℝ)) : Except Fault (List Rel) :=
  (List.range N).mapM fun (i : ℕ) => do
    let d ← rd dM i
    let m ← rd M i
    pure (relQuot (norm2 d) (norm2 m))

/-- One sweep of `alsCP_PP_partupdate_sub` (als_CP.cxx:900, 962-1056); `p` is `update_percentage`. -/
noncomputable def partSweep (N rank : ℕ) (lam ratio p : ℝ) (k : Kern ℝ) (srt : List Rel → List ℕ) (ops : Cache ℝ)
    (Winit : List (Tensor ℝ)) (s : PartState) : Except Fault PartState := do
  let sorted ← sortIndexes srt s.rel
  let s ← partUpdates N rank lam ratio k ops Winit sorted (truncR (N * p)) s
  let rel ← relatives N s.dM s.M
  let W ← normalize s.W N
  pure { s with W := W, rel := rel }

/-- The initial `dM`, `M`, `W_relative_perturbe` (als_CP.cxx:888-898). -/
noncomputable def partInit (N : ℕ) (W G dW : List (Tensor ℝ)) : PartState :=
  ⟨W, G, dW, W.map zerosLike, W.map zerosLike, List.replicate N (some ((0 : ℝ) : WithTop ℝ))⟩

end Model
