import Verif.Model.Main

/-! # `main` of pp_bench.cxx (55-345) -/

namespace Model

/-- Option parsing of pp_bench.cxx:55-175: as test_ALS.cxx, but `-pp` outside `0..1` becomes `0`, and there are no
`-update_percentage_pp`, `-tensorfile` (`updatePct` is set to 1, `tensorfile` to the empty string; neither is used). -/
noncomputable def benchOpts (atof : CStr → F64) (argv : List CStr) : Except Fault Opts := do
  let pp ← intOpt argv "-pp" (fun x => x < 0 ∨ x > 1) 0
  let dim ← intOpt argv "-dim" (· < 0) 8
  let maxiter ← intOpt argv "-maxiter" (· < 0) 5000
  let s ← intOpt argv "-size" (· < 0) 10
  let R ← intOpt argv "-rank" (fun x => x < 0 ∨ x > s) (Int.tdiv s 2)
  let sp ← intOpt argv "-issparse" (fun x => x < 0 ∨ x > 1) 0
  let rp ← intOpt argv "-resprint" (· < 0) 10
  pure {
    model := modelOpt argv
    tensor := strOpt argv "-tensor" "p"
    pp := pp
    updatePct := .fin 1
    dim := dim
    maxiter := maxiter
    timelimit := dblOpt atof argv "-timelimit" negative 5000
    size := s
    R := R
    updateRank := 0
    issparse := sp
    resprint := rp
    randomsvd := 0
    tol := dblOpt atof argv "-tol" notUnit 1e-10
    ppResTol := dblOpt atof argv "-pp_res_tol" notUnit 1e-2
    lambda := dblOpt atof argv "-lambda" negative 0
    magni := dblOpt atof argv "-magni" negative 1
    filename := strOpt argv "-filename" "out.csv"
    tensorfile := []
    colMin := dblOpt atof argv "-colmin" (fun _ => False) 0.5
    colMax := dblOpt atof argv "-colmax" (fun _ => False) 0.9
    ratioNoise := dblOpt atof argv "-rationoise" negative 0.01 }

/-- The tensor `V` (pp_bench.cxx:195-262): the code of test_ALS.cxx without the data sets.  For `-tensor o..` and unknown values `V`
stays default-constructed (order 0), so that the drivers read `W[0]` of an empty array (`als_CP.cxx:144`) or `V.lens[0]`. -/
noncomputable def benchTensor (E : MainEnv) (o : Opts) : Except Fault (Tensor ℝ) :=
  match tensorKind o.tensor with
  | .coil | .timelapse | .none => .error .ub
  | _ => mainTensor E o

/-- `for (j...) D[j]["ij"] = S[j]["ij"]` for matrices of the same shapes (pp_bench.cxx:299-301, 308-310, 325-327, 335-337). -/
def copyMats (order : ℕ) (D S : List (Tensor ℝ)) : Except Fault (List (Tensor ℝ)) :=
  (List.range order).foldlM (fun D (j : ℕ) => do
    let s ← rd S j
    pure (D.set j s)) D

/-- The repetitions `alsCP_DT(V, W_DT, grad_W, F, .., 1, .., true, dw); W_DT = W` (pp_bench.cxx:296-302).  `t i` are the comparisons
during repetition `i`.  Result: `grad_W` and what the calls left (the factors before they are restored). -/
noncomputable def benchCPDT (N R : ℕ) (lam : ℝ) (solve : Spec.Solver ℝ) (V : Tensor ℝ) (F : List (Tensor ℝ)) (t : ℕ → Cmp ℝ)
    (resprint : ℤ) (fuel : ℕ) (W : List (Tensor ℝ)) (n : ℕ) (s : List (Tensor ℝ) × List (Tensor ℝ) × List (LLEnd (Fac ℝ))) :
    Except Fault (List (Tensor ℝ) × List (Tensor ℝ) × List (LLEnd (Fac ℝ))) :=
  (List.range n).foldlM (fun s (i : ℕ) => do
    let r ← alsCPDTC N R lam solve V F (t i) 1 resprint fuel ⟨s.1, s.2.1⟩
    let D ← copyMats N r.st.W W
    pure (D, r.st.G, s.2.2 ++ [r])) s

/-- The repetitions `alsCP_PP(V, W_PP, grad_W, F, .., 1, .., true, dw); W_PP = W` (pp_bench.cxx:305-311). -/
noncomputable def benchCPPP (same : Bool) (N R : ℕ) (lam ratio tolInit : ℝ) (k : Kern ℝ) (V : Tensor ℝ) (t : ℕ → Cmp ℝ)
    (c : PPCtl) (fuel : ℕ) (W : List (Tensor ℝ)) (n : ℕ)
    (s : List (Tensor ℝ) × List (Tensor ℝ) × List (PPRun CPPPState × Bool)) :
    Except Fault (List (Tensor ℝ) × List (Tensor ℝ) × List (PPRun CPPPState × Bool)) :=
  (List.range n).foldlM (fun s (i : ℕ) => do
    let r ← alsCPPPC same N R lam ratio tolInit k V (t i) c fuel s.1 s.2.1
    let D ← copyMats N r.1.st.W W
    pure (D, r.1.st.G, s.2.2 ++ [r])) s

/-- The repetitions `W_DT = W; alsTucker_DT(V, hosvd_core, W_DT, .., 1, .., true, dw)` (pp_bench.cxx:324-331).  The core is carried over. -/
noncomputable def benchTuckDT (N : ℕ) (k : Kern ℝ) (V : Tensor ℝ) (t : ℕ → Cmp ℝ) (resprint : ℤ) (fuel : ℕ) (W : List (Tensor ℝ))
    (n : ℕ) (s : List (Tensor ℝ) × Tensor ℝ × List (LLEnd TuckState)) :
    Except Fault (List (Tensor ℝ) × Tensor ℝ × List (LLEnd TuckState)) :=
  (List.range n).foldlM (fun s (i : ℕ) => do
    let D ← copyMats N s.1 W
    let r ← alsTuckerDTC k V (t i) 1 resprint fuel s.2.1 D
    pure (r.st.W, r.st.core, s.2.2 ++ [r])) s

/-- The repetitions `W_PP = W; alsTucker_PP(V, hosvd_core, W_PP, .., 1, .., true, dw)` (pp_bench.cxx:334-341). -/
noncomputable def benchTuckPP (N : ℕ) (k : Kern ℝ) (V : Tensor ℝ) (tolInit : ℝ) (t : ℕ → Cmp ℝ) (c : PPCtl) (fuel : ℕ)
    (W : List (Tensor ℝ)) (n : ℕ) (s : List (Tensor ℝ) × Tensor ℝ × List (PPRun TuckPPState × Bool)) :
    Except Fault (List (Tensor ℝ) × Tensor ℝ × List (PPRun TuckPPState × Bool)) :=
  (List.range n).foldlM (fun s (i : ℕ) => do
    let D ← copyMats N s.1 W
    let r ← alsTuckerPPC N k V tolInit (t i) c fuel s.2.1 D
    pure (r.1.st.W, r.1.st.core, s.2.2 ++ [r])) s

/-- What the repetitions of the two benchmarks have left. -/
inductive BenchOut
  | nothing
  | cp (dt : List (LLEnd (Fac ℝ))) (pp : List (PPRun CPPPState × Bool))
  | tucker (dt : List (LLEnd TuckState)) (pp : List (PPRun TuckPPState × Bool))

/-- `Tensor<>(dim, issparse, ranks, dw)` with `ranks[V.order]` (pp_bench.cxx:316-321): reads `dim` elements of an array of length
`V.order`. -/
def benchCore (dim order R : ℕ) : Except Fault (Tensor ℝ) :=
  if order < dim then .error .ub else .ok (zeroT ℝ (List.replicate dim R))

/-- The benchmarks (pp_bench.cxx:264-345); `-pp` is not used.  `clkD i`, `clkP i` are the clocks of repetition `i`. -/
noncomputable def benchDrive (E : MainEnv) (clkD clkP : ℕ → ℕ → ℝ) (fuel : ℕ) (o : Opts) (V : Tensor ℝ) : Except Fault BenchOut :=
  let N := V.lens.length
  let R := o.R.toNat
  let W := fillMats V.lens R E.w0
  let G := fillMats V.lens R E.g0
  let F := fillMats V.lens R fun _ _ _ => 0
  let tD := fun i => mixCmp (o.tol.mul (norm2 V)) o.timelimit (clkD i)
  let tP := fun i => mixCmp (o.tol.mul (norm2 V)) o.timelimit (clkP i)
  let c : PPCtl := ⟨false, 1, o.resprint, true⟩
  let n := o.maxiter.toNat
  if o.model[0]? = some 'C' then do
    let d ← benchCPDT N R o.lambda.toReal E.solve V F tD o.resprint fuel W n (W, G, [])
    let p ← benchCPPP E.same N R o.lambda.toReal o.magni.toReal o.ppResTol.toReal E.kern V tP c fuel W n (W, d.2.1, [])
    pure (.cp d.2.2 p.2.2)
  else if o.model[0]? = some 'T' then do
    let core ← benchCore o.dim.toNat N R
    let d ← benchTuckDT N E.kern V tD o.resprint fuel W n (W, core, [])
    let p ← benchTuckPP N E.kern V o.ppResTol.toReal tP c fuel W n (W, d.2.1, [])
    pure (.tucker d.2.2 p.2.2)
  else .ok .nothing

/-- `main` of pp_bench.cxx after the options are parsed (pp_bench.cxx:193-345). -/
noncomputable def benchMain (E : MainEnv) (clkD clkP : ℕ → ℕ → ℝ) (fuel : ℕ) (o : Opts) : Except Fault (Tensor ℝ × BenchOut) := do
  let V ← benchTensor E o
  let out ← benchDrive E clkD clkP fuel o V
  pure (V, out)

end Model
