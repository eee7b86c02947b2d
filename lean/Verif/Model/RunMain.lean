import Verif.Model.Main

/-! # `main` of run.cxx from the parsed options to the result (run.cxx:240-414) -/

namespace Model

/-- `main` of run.cxx after the options are parsed (run.cxx:240-414): the tensor and, if an optimizer is selected, what `als`
leaves behind.  `lr q random` is the low-rank routine for update rank `q`.  The tensor is set up as in test_ALS.cxx
(run.cxx:243-352 and test_ALS.cxx:221-322 agree).  `decom(dim, s, R, ..)` constructs the optimizer, `Init(&V, W)` has default
`lambda = 0` (src/CP.h:26) and fills `grad_W` of `dim` matrices `s × R` with random numbers (src/CP.cxx:67-84).
`lambda_`, `magni`, `pp_res_tol`, `update_percentage_pp` are parsed but not used. -/
noncomputable def runMain (E : MainEnv) (lr : ℕ → Bool → Spec.LowRank ℝ) (fuel : ℕ) (o : Opts) :
    Except Fault (Tensor ℝ × Option (AlsEnd (OptState ℝ × Fac ℝ))) := do
  let V ← mainTensor E o
  let d := o.dim.toNat
  let s := o.size.toNat
  let R := o.R.toNat
  let q := o.updateRank.toNat
  match dispatch o with
  | none => pure (V, none)
  | some k => do
    let o0 ← optInit ℝ d k
    initAsserts V.lens (List.replicate V.lens.length R) d s R
    let r ← cpdAlsC k d R 0 E.solve q (lr q (decide (o.randomsvd = 1))) V
      (mixCmp (o.tol.mul (norm2 V)) o.timelimit E.clock) o.maxiter o.resprint fuel
      (o0, ⟨fillMats V.lens R E.w0, fillMats (List.replicate d s) R E.g0⟩)
    pure (V, some r)

/-- `main(argc, argv)` of run.cxx (run.cxx:52-414). -/
noncomputable def runProgram (E : MainEnv) (lr : ℕ → Bool → Spec.LowRank ℝ) (atof : CStr → F64) (fuel : ℕ) (argv : List CStr) :
    Except Fault (Tensor ℝ × Option (AlsEnd (OptState ℝ × Fac ℝ))) := do
  let o ← runOpts atof argv
  runMain E lr fuel o

end Model
