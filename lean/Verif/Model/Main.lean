import Verif.Model.Ieee

/-! # `main` of test_ALS.cxx from the parsed options to the result (test_ALS.cxx:218-397) -/

namespace Model

/-- The value of a finite `double`.  Options that enter the data (`lambda`, `magni`, `pp_res_tol`, ...) are modelled for finite
values only: the theorems assume `Opts.Finite`, so the value 0 for NaN and infinities is never used. -/
def F64.toReal : F64 → ℝ
  | .fin x => x
  | _ => 0

/-- Neither NaN nor infinite. -/
def F64.Finite (x : F64) : Prop := ∃ r, x = .fin r

/-- The options that enter the data are finite. -/
structure Opts.FiniteData (o : Opts) : Prop where
  lambda : o.lambda.Finite
  magni : o.magni.Finite
  ppResTol : o.ppResTol.Finite
  updatePct : o.updatePct.Finite
  colMin : o.colMin.Finite
  colMax : o.colMax.Finite
  ratioNoise : o.ratioNoise.Finite

/-- All options of type `double` are finite. -/
structure Opts.Finite (o : Opts) : Prop extends o.FiniteData where
  tol : o.tol.Finite
  timelimit : o.timelimit.Finite

/-- What `main` gets from outside: number of MPI ranks, random numbers (per `fill_random` target), the data file, what
`read_local` returns on the ranks, the clock, and the library kernels. -/
structure MainEnv where
  np : ℕ
  /-- draws of `Gen_collinearity` -/
  colRnd : ℕ → ℕ → ℝ
  /-- bound for the rejection loop of `Gen_collinearity` -/
  colFuel : ℕ
  /-- `W[i]` of tensor `r` -/
  matRnd : ℕ → ℕ → ℕ → ℝ
  /-- tensor `r2`, noise of tensor `c` -/
  tenRnd : List ℕ → ℝ
  file : List ℕ → ℝ
  /-- initial `W[i]`, `grad_W[i]` -/
  w0 : ℕ → ℕ → ℕ → ℝ
  g0 : ℕ → ℕ → ℕ → ℝ
  readLocal : Tensor ℝ → List (List (ℕ × ℝ))
  clock : ℕ → ℝ
  solve : Spec.Solver ℝ
  kern : Kern ℝ
  srt : List Rel → List ℕ
  /-- see `stringbuilder0` -/
  same : Bool

/-- A tensor of the given edge lengths filled entrywise (`fill_random`, `read_dense_from_file`). -/
def fillT (lens : List ℕ) (f : List ℕ → ℝ) : Tensor ℝ := ⟨lens, fun idx => if fits lens idx = true then f idx else 0⟩

/-- An `n × m` matrix filled entrywise. -/
def fillM (n m : ℕ) (f : ℕ → ℕ → ℝ) : Tensor ℝ := fillT [n, m] fun idx => f (idx.getD 0 0) (idx.getD 1 0)

/-- The matrices `Matrix<>(V.lens[i], R, dw)` filled by `f i` (test_ALS.cxx:305-309, 328-343). -/
def fillMats (lens : List ℕ) (R : ℕ) (f : ℕ → ℕ → ℕ → ℝ) : List (Tensor ℝ) :=
  (List.range lens.length).map fun i => fillM (lens.getD i 0) R (f i)

/-- The tensor `V` (test_ALS.cxx:221-322), for `dim, size >= 0`, `size >= 1`. -/
noncomputable def mainTensor (E : MainEnv) (o : Opts) : Except Fault (Tensor ℝ) := do
  let k := tensorKind o.tensor
  let d := o.dim.toNat
  let s := o.size.toNat
  let lens ← tensorLens k d s
  match k with
  | .poisson2 => laplacianGen 1 E.np (zeroT ℝ lens) d s
  | .poisson => do
    let V0 ← laplacianGen 1 E.np (zeroT ℝ (List.replicate d s)) d s
    foldUnfold (E.readLocal V0) (zeroT ℝ lens)
  | .collinear => do
    let V ← genCollinearity o.colMin.toReal o.colMax.toReal E.colRnd lens o.R.toNat E.colFuel
    addNoise o.ratioNoise.toReal V (fillT lens E.tenRnd)
  | .random => buildV (fillMats lens o.R.toNat E.matRnd) d
  | .random2 => pure (fillT lens E.tenRnd)
  | .coil | .timelapse => pure (fillT lens E.file)
  | .none => .error .ub

/-- `ranks` of the Tucker branch (test_ALS.cxx:366-388). -/
def mainRanks (o : Opts) (order : ℕ) : List ℕ :=
  match tensorKind o.tensor with
  | .coil => [3, 10, 10, 70]
  | .timelapse => [10, 100, 100, 5]
  | _ => List.replicate order o.R.toNat

/-- What `main` has computed: the final variables of the driver it called, and the value the driver returned. -/
inductive MainOut
  | nothing
  | cpDT (r : LLEnd (Fac ℝ))
  | cpPP (r : PPRun CPPPState) (ret : Bool)
  | cpPart (r : PPRun PartPPState) (ret : Bool)
  | tuckDT (r : LLEnd TuckState)
  | tuckPP (r : PPRun TuckPPState) (ret : Bool)

/-- The call of the driver (test_ALS.cxx:324-397).  In the Tucker branch `W` is replaced by the factors of `hosvd`.  `fuel` bounds
the loops of the drivers.  `tol` and `timelimit` may be NaN or infinite. -/
noncomputable def mainDrive (E : MainEnv) (fuel : ℕ) (o : Opts) (V : Tensor ℝ) : Except Fault MainOut :=
  let N := V.lens.length
  let R := o.R.toNat
  let W := fillMats V.lens R E.w0
  let G := fillMats V.lens R E.g0
  let F := fillMats V.lens R fun _ _ _ => 0
  let t := mixCmp (o.tol.mul (norm2 V)) o.timelimit E.clock
  let c : PPCtl := ⟨false, o.maxiter, o.resprint, false⟩
  if o.model[0]? = some 'C' then
    if o.pp = 0 then do
      let r ← alsCPDTC N R o.lambda.toReal E.solve V F t o.maxiter o.resprint fuel ⟨W, G⟩
      pure (.cpDT r)
    else if o.pp = 1 then do
      let r ← alsCPPPC E.same N R o.lambda.toReal o.magni.toReal o.ppResTol.toReal E.kern V t c fuel W G
      pure (.cpPP r.1 r.2)
    else if o.pp = 2 then do
      let r ← alsCPPartC E.same N R o.lambda.toReal o.magni.toReal o.ppResTol.toReal o.updatePct.toReal E.kern E.srt V t c fuel W G
      pure (.cpPart r.1 r.2)
    else .ok .nothing
  else if o.model[0]? = some 'T' then do
    let h ← hosvd E.kern V (mainRanks o N)
    if o.pp = 0 then do
      let r ← alsTuckerDTC E.kern V t o.maxiter o.resprint fuel h.1 h.2
      pure (.tuckDT r)
    else if o.pp = 1 then do
      let r ← alsTuckerPPC N E.kern V o.ppResTol.toReal t c fuel h.1 h.2
      pure (.tuckPP r.1 r.2)
    else pure .nothing
  else .ok .nothing

/-- `main` of test_ALS.cxx after the options are parsed (test_ALS.cxx:218-397): the tensor and the result. -/
noncomputable def testMain (E : MainEnv) (fuel : ℕ) (o : Opts) : Except Fault (Tensor ℝ × MainOut) := do
  let V ← mainTensor E o
  let out ← mainDrive E fuel o V
  pure (V, out)

/-- `main` of test_ALS.cxx:51-399: the options of the command line `argv`, the tensor and the driver. -/
noncomputable def testProgram (E : MainEnv) (atof : CStr → F64) (fuel : ℕ) (argv : List CStr) : Except Fault (Tensor ℝ × MainOut) := do
  let o ← testOpts atof argv
  testMain E fuel o

end Model
