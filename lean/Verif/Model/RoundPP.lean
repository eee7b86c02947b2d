import Verif.Model.RoundTucker
import Verif.Model.PP

/-! # Pairwise perturbation for CP in floating-point arithmetic

As `Round.lean`: the functions of `PP.lean` with the evaluation of contractions and elementwise sums as a parameter.  With exact
evaluation they are those functions (`*_exact`). -/

namespace Model

variable (P : Arith)

/-- As `ppFromRoot` (als_CP.cxx:360-382). -/
def ppFromRootR (same : Bool) (N : ℕ) (V : Tensor ℝ) (W : List (Tensor ℝ)) (seq : Key) : Except Fault (Tensor ℝ) := do
  let s1 ← stringbuilder N seq
  let s2 ← stringbuilder0 same N
  let c ← rd seq 0
  let lens ← lensInit V W s1
  let Wc ← rd W (decode c)
  P.ev lens s1 [(V, s2), (Wc, [c, star])]

/-- As `ppFromParent` (als_CP.cxx:386-408). -/
def ppFromParentR (N : ℕ) (V : Tensor ℝ) (W : List (Tensor ℝ)) (seq : Key) (Tp : Tensor ℝ) :
    Except Fault (Tensor ℝ) := do
  let s1 ← stringbuilder N seq
  let s2 ← stringbuilder N seq.dropLast
  let c ← rd seq ((seq.length : ℤ) - 1)
  let lens ← lensInit V W s1
  let Wc ← rd W (decode c)
  P.ev lens s1 [(Tp, s2), (Wc, [c, star])]

/-- As `buildMttkrpMap` (als_CP.cxx:352-409). -/
def buildMttkrpMapR (same : Bool) (N : ℕ) (V : Tensor ℝ) (W : List (Tensor ℝ)) (seq : Key) (cache : Cache ℝ) :
    Except Fault (Cache ℝ) :=
  buildNode (ppFromRootR P same N V W) (ppFromParentR P N V W) seq cache

/-- As `ppOperators` (als_CP.cxx:671-690). -/
def ppOperatorsR (same : Bool) (N : ℕ) (V : Tensor ℝ) (W : List (Tensor ℝ)) : Except Fault (Cache ℝ) :=
  (ppKeys N).foldlM (fun cache seq => buildMttkrpMapR P same N V W seq cache) []

/-- As `ppContrib` (als_CP.cxx:761-777). -/
def ppContribR (N : ℕ) (ops : Cache ℝ) (dW : List (Tensor ℝ)) (i : ℕ) (M : Tensor ℝ) (j : ℕ) :
    Except Fault (Tensor ℝ) := do
  let dWj ← rd dW j
  if j < i then
    match ops.lookup (exceptTwo (allLetters N) j i) with
    | none => .error .ub
    | some T => accumR P M [lj, lk] [(T, [li, lj, lk]), (dWj, [li, lk])]
  else
    match ops.lookup (exceptTwo (allLetters N) i j) with
    | none => .error .ub
    | some T => accumR P M [li, lk] [(T, [li, lj, lk]), (dWj, [lj, lk])]

/-- As `ppM` (als_CP.cxx:752-777). -/
def ppMR (N : ℕ) (ops : Cache ℝ) (dW : List (Tensor ℝ)) (i : ℕ) : Except Fault (Tensor ℝ) := do
  match ops.lookup (exceptOne (allLetters N) i) with
  | none => .error .ub
  | some M0 => (List.range i ++ List.range' (i + 1) (N - (i + 1))).foldlM (ppContribR P N ops dW i) M0

/-- As `ppUpdate` (als_CP.cxx:736-804) for `ratio_step = 1`, in which case `SVD_solve_mod` (common.cxx:739-758) sets
`dW = W - W_init` and leaves `W` alone.  The solver is any function, rounding or not. -/
def ppUpdateR (N rank : ℕ) (lam : ℝ) (solve : Spec.Solver ℝ) (ops : Cache ℝ) (Winit : List (Tensor ℝ)) (s : PPState ℝ)
    (i : ℕ) : Except Fault (PPState ℝ) := do
  let M ← ppMR P N ops s.dW i
  let S ← gramSR P (swapIdx N i) rank lam s.W
  let f ← modeTailR P solve ⟨s.W, s.G⟩ i M S
  let Wi ← rd f.W i
  let Wi0 ← rd Winit i
  let d ← P.zp (· - ·) Wi Wi0
  pure ⟨f.W, f.G, s.dW.set i d⟩

/-- As `ppUpdates` (als_CP.cxx:736-813), `ratio_step = 1`. -/
def ppUpdatesR (N rank : ℕ) (lam : ℝ) (solve : Spec.Solver ℝ) (ops : Cache ℝ) (Winit : List (Tensor ℝ)) (s : PPState ℝ) :
    Except Fault (PPState ℝ) :=
  (List.range N).foldlM (ppUpdateR P N rank lam solve ops Winit) s

/-! With exact evaluation these are the functions of `PP.lean`. -/

theorem ppOperatorsR_exact : ppOperatorsR .exact = ppOperators := rfl

theorem ppMR_exact : ppMR .exact = ppM := by
  funext N ops dW i
  have h : ppContribR .exact N ops dW i = ppContrib N ops dW i := by
    funext M j
    unfold ppContribR ppContrib
    refine bind_congr fun _ => ?_
    split_ifs
    · cases ops.lookup (exceptTwo (allLetters N) j i) <;> rfl
    · cases ops.lookup (exceptTwo (allLetters N) i j) <;> rfl
  unfold ppMR ppM
  rw [h]
  cases ops.lookup (exceptOne (allLetters N) i) <;> rfl

end Model
