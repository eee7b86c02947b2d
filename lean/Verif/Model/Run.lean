import Verif.Model.AlsLoop
import Verif.Model.Generators

/-! # The main programs: options, tensor set-up, dispatch (run.cxx, test_ALS.cxx) -/

namespace Model

/-- A C string, without its terminating NUL. -/
abbrev CStr := List Char

/-- `getCmdOption(begin, end, option)` (run.cxx:15-21, test_ALS.cxx:14-20); `none` is the null pointer. -/
def getCmdOption (argv : List CStr) (option : CStr) : Option CStr :=
  match argv.dropWhile fun a => decide (a ≠ option) with
  | _ :: t :: _ => some t
  | _ => none

/-- C's `isspace` in the "C" locale. -/
def isSpaceC (c : Char) : Bool := c == ' ' || (9 ≤ c.toNat && c.toNat ≤ 13)

/-- Value of the longest prefix of digits. -/
def digitsVal : ℤ → CStr → ℤ
  | acc, c :: cs => if c.isDigit then digitsVal (acc * 10 + ((c.toNat : ℤ) - 48)) cs else acc
  | acc, [] => acc

/-- C's `atoi`: leading white space, an optional sign, digits; `0` if there are none. A value that does not fit into `int`
is undefined behaviour. -/
def atoi (s : CStr) : Except Fault ℤ :=
  let v := match s.dropWhile isSpaceC with
    | '-' :: t => - digitsVal 0 t
    | '+' :: t => digitsVal 0 t
    | t => digitsVal 0 t
  if -2147483648 ≤ v ∧ v ≤ 2147483647 then .ok v else .error .ub

/-- Values of type `double` as far as comparisons are concerned. -/
inductive F64
  | nan
  | ninf
  | fin (x : ℝ)
  | pinf

/-- IEEE `<`: false if an operand is NaN. -/
def F64.lt : F64 → F64 → Prop
  | .nan, _ => False
  | _, .nan => False
  | .ninf, .ninf => False
  | .ninf, _ => True
  | .fin _, .ninf => False
  | .fin x, .fin y => x < y
  | .fin _, .pinf => True
  | .pinf, _ => False

/-- The options of run.cxx:67-214; test_ALS.cxx:66-196 has the same ones without `updateRank` and `randomsvd`. -/
structure Opts where
  model : CStr
  tensor : CStr
  pp : ℤ
  updatePct : F64
  dim : ℤ
  maxiter : ℤ
  timelimit : F64
  size : ℤ
  R : ℤ
  updateRank : ℤ
  issparse : ℤ
  resprint : ℤ
  randomsvd : ℤ
  tol : F64
  ppResTol : F64
  lambda : F64
  magni : F64
  filename : CStr
  tensorfile : CStr
  colMin : F64
  colMax : F64
  ratioNoise : F64

/-- `if (getCmdOption(..)) { x = atoi(getCmdOption(..)); if (bad) x = dflt; } else x = dflt;` -/
def intOpt (argv : List CStr) (name : String) (bad : ℤ → Prop) [DecidablePred bad] (dflt : ℤ) : Except Fault ℤ :=
  match getCmdOption argv name.toList with
  | some t => do
    let v ← atoi t
    pure (if bad v then dflt else v)
  | none => .ok dflt

open Classical in
/-- The same with `atof`. -/
noncomputable def dblOpt (atof : CStr → F64) (argv : List CStr) (name : String) (bad : F64 → Prop) (dflt : ℝ) : F64 :=
  match getCmdOption argv name.toList with
  | some t => if bad (atof t) then .fin dflt else atof t
  | none => .fin dflt

/-- A string option. -/
def strOpt (argv : List CStr) (name dflt : String) : CStr := (getCmdOption argv name.toList).getD dflt.toList

/-- `x < 0 || x > 1`. -/
def notUnit (x : F64) : Prop := x.lt (.fin 0) ∨ (F64.fin 1).lt x

/-- `x < 0`. -/
def negative (x : F64) : Prop := x.lt (.fin 0)

/-- `model` (run.cxx:67-73). -/
def modelOpt (argv : List CStr) : CStr :=
  match getCmdOption argv "-model".toList with
  | some t => if t.head? ≠ some 'C' ∧ t.head? ≠ some 'T' then "CP".toList else t
  | none => "CP".toList

/-- Option parsing of run.cxx:67-214. `atof` is the C library function; `s / 2` is C's division. -/
noncomputable def runOpts (atof : CStr → F64) (argv : List CStr) : Except Fault Opts := do
  let pp ← intOpt argv "-pp" (· < 0) 0
  let dim ← intOpt argv "-dim" (· < 0) 8
  let maxiter ← intOpt argv "-maxiter" (· < 0) 5000
  let s ← intOpt argv "-size" (· < 0) 10
  let R ← intOpt argv "-rank" (· < 0) (Int.tdiv s 2)
  let ur ← intOpt argv "-updaterank" (· < 0) (Int.tdiv s 2)
  let sp ← intOpt argv "-issparse" (fun x => x < 0 ∨ x > 1) 0
  let rp ← intOpt argv "-resprint" (· < 0) 10
  let rs ← intOpt argv "-randomsvd" (fun x => x < 0 ∨ x > 1) 0
  pure {
    model := modelOpt argv
    tensor := strOpt argv "-tensor" "p"
    pp := pp
    updatePct := dblOpt atof argv "-update_percentage_pp" notUnit 1
    dim := dim
    maxiter := maxiter
    timelimit := dblOpt atof argv "-timelimit" negative 5000
    size := s
    R := R
    updateRank := ur
    issparse := sp
    resprint := rp
    randomsvd := rs
    tol := dblOpt atof argv "-tol" notUnit 1e-10
    ppResTol := dblOpt atof argv "-pp_res_tol" notUnit 1e-2
    lambda := dblOpt atof argv "-lambda" negative 0
    magni := dblOpt atof argv "-magni" negative 1
    filename := strOpt argv "-filename" "out.csv"
    tensorfile := strOpt argv "-tensorfile" "test"
    colMin := dblOpt atof argv "-colmin" (fun _ => False) 0.5
    colMax := dblOpt atof argv "-colmax" (fun _ => False) 0.9
    ratioNoise := dblOpt atof argv "-rationoise" negative 0.01 }

/-- Option parsing of test_ALS.cxx:66-196: `-pp` outside `0..2` becomes `0` and `-rank` outside `0..size` becomes `size / 2`.
`updateRank`, `randomsvd` do not exist there and are set to `0`. -/
noncomputable def testOpts (atof : CStr → F64) (argv : List CStr) : Except Fault Opts := do
  let pp ← intOpt argv "-pp" (fun x => x < 0 ∨ x > 2) 0
  let dim ← intOpt argv "-dim" (· < 0) 8
  let maxiter ← intOpt argv "-maxiter" (· < 0) 5000
  let s ← intOpt argv "-size" (· < 0) 10
  let R ← intOpt argv "-rank" (fun x => x < 0 ∨ x > s) (Int.tdiv s 2)
  let sp ← intOpt argv "-issparse" (fun x => x < 0 ∨ x > 1) 0
  let rp ← intOpt argv "-resprint" (· < 0) 10
  pure {
    model := modelOpt argv
    tensor := strOpt argv "-tensor" "p"
    pp := pp
    updatePct := dblOpt atof argv "-update_percentage_pp" notUnit 1
    dim := dim
    maxiter := maxiter
    timelimit := dblOpt atof argv "-timelimit" negative 5000
    size := s
    R := R
    updateRank := 0
    issparse := sp
    resprint := rp
    randomsvd := 0
    tol := dblOpt atof argv "-tol" notUnit 1e-10
    ppResTol := dblOpt atof argv "-pp_res_tol" notUnit 1e-2
    lambda := dblOpt atof argv "-lambda" negative 0
    magni := dblOpt atof argv "-magni" negative 1
    filename := strOpt argv "-filename" "out.csv"
    tensorfile := strOpt argv "-tensorfile" "test"
    colMin := dblOpt atof argv "-colmin" (fun _ => False) 0.5
    colMax := dblOpt atof argv "-colmax" (fun _ => False) 0.9
    ratioNoise := dblOpt atof argv "-rationoise" negative 0.01 }

/-- The tensor classes `main` distinguishes (run.cxx:243-352): first and second character of `tensor`. -/
inductive TensorKind
  | poisson
  | poisson2
  | collinear
  | random
  | random2
  | coil
  | timelapse
  | none
  deriving DecidableEq

/-- run.cxx:243-352 (`strlen(tensor) > 1 && tensor[1] == '2'` etc.). -/
def tensorKind (t : CStr) : TensorKind :=
  if t[0]? = some 'p' then (if t[1]? = some '2' then .poisson2 else .poisson)
  else if t[0]? = some 'c' then .collinear
  else if t[0]? = some 'r' then (if t[1]? = some '2' then .random2 else .random)
  else if t[0]? = some 'o' then
    (if t[1]? = some '1' then .coil else if t[1]? = some '2' then .timelapse else .none)
  else .none

/-- Edge lengths of `V` after the set-up (run.cxx:243-352), for `dim, s >= 0`. The data sets write `lens[0..3]` of an array
of length `dim` and read `dim` of them. `none`: `V` stays a default-constructed tensor; using it is outside the model. -/
def tensorLens (k : TensorKind) (dim s : ℕ) : Except Fault (List ℕ) :=
  match k with
  | .poisson => .ok (List.replicate (dim / 2) (s * s))
  | .poisson2 | .collinear | .random | .random2 => .ok (List.replicate dim s)
  | .coil => if dim = 4 then .ok [3, 128, 128, 7200] else .error .ub
  | .timelapse => if dim = 4 then .ok [33, 1344, 1024, 9] else .error .ub
  | .none => .error .ub

/-- The assertions of `Decomposition::Init` for `CPD decom(dim, s, R, dw)` (src/decomposition.cxx:7-17, 56-60, reached from
run.cxx:391-409): `order`, all `size[i] = s`, all `rank[i] = R`. The factors have `R` columns (run.cxx:366-374). -/
def initAsserts (lens : List ℕ) (ncols : List ℕ) (dim s R : ℕ) : Except Fault Unit :=
  if lens.length ≠ dim then .error .abort
  else if (lens.zip ncols).all fun p => decide (p.1 = s ∧ p.2 = R) then .ok ()
  else .error .abort

/-- The optimizer chosen by run.cxx:390-409 for `model[0] == 'C'`; `none`: nothing is run. -/
def dispatch (o : Opts) : Option OptKind :=
  if o.model[0]? = some 'C' then
    if o.pp = 0 then some .dt
    else if o.pp = 1 then some .msdt
    else if o.pp = 2 then some .dtlr
    else if o.pp = 3 then some .msdtlr
    else if o.pp = 4 then some .simple
    else none
  else none

/-- From parsed options to the state in which `als` is called (run.cxx:240-409): `none` if no optimizer is run. -/
def runSetup (o : Opts) : Except Fault (Option (OptKind × List ℕ)) := do
  let lens ← tensorLens (tensorKind o.tensor) o.dim.toNat o.size.toNat
  match dispatch o with
  | none => pure none
  | some k => do
    initAsserts lens (List.replicate lens.length o.R.toNat) o.dim.toNat o.size.toNat o.R.toNat
    pure (some (k, lens))

/-- The noise added to the tensor of kind `c` (run.cxx:282-287): `V + ratio * ‖V‖ / ‖noise‖ * noise`. -/
noncomputable def addNoise (ratio : ℝ) (V noise : Tensor ℝ) : Except Fault (Tensor ℝ) :=
  zipT (· + ·) V (scaleT (ratio * norm2 V / norm2 noise) noise)

end Model
