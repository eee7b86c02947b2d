import Verif.Model.Ownership
import Verif.Model.RunMain

/-! # The base class `Decomposition` (src/decomposition.h, src/decomposition.cxx) and tests/test_decomposition.cxx -/

namespace Model

/-- What the tensors and factor arrays behind pointers look like: mode lengths, numbers of columns of the matrices of an array. -/
structure Shapes where
  lens : ℕ → List ℕ
  cols : ℕ → List ℕ

/-- An object of class `Decomposition` built by `Decomposition(order, size_, r, dw)` (src/decomposition.h:24-43,
src/decomposition.cxx:7-17): all entries of `size` are `s`, all entries of `rank` are `r`. -/
structure DecObj where
  order : ℕ
  s : ℕ
  r : ℕ
  size : Option ℕ
  rank : Option ℕ
  V : Option ℕ
  W : Option ℕ

/-- The constructor (src/decomposition.cxx:7-17). -/
def decConstruct (n s r : ℕ) (h : Heap) : DecObj × Heap :=
  let (a, h) := h.alloc .array
  let (b, h) := h.alloc .array
  (⟨n, s, r, some a, some b, none, none⟩, h)

/-- The assertions for mode `i` (src/decomposition.cxx:57-60). -/
def decAssert (S : Shapes) (d : DecObj) (h : Heap) (v w : Option ℕ) (i : ℕ) : Except Fault Unit := do
  h.use v
  h.use d.size
  match (v.map S.lens).bind (·[i]?) with
  | none => .error .ub
  | some l =>
    if l ≠ d.s then .error .abort
    else do
      h.use w
      h.use d.rank
      match (w.map S.cols).bind (·[i]?) with
      | none => .error .ub
      | some c => if c ≠ d.r then .error .abort else .ok ()

/-- `Init(input, W)` (src/decomposition.cxx:54-69). -/
def decInit (S : Shapes) (d : DecObj) (h : Heap) (v w : Option ℕ) : Except Fault (DecObj × Heap) := do
  h.use v
  if (v.map S.lens).map List.length ≠ some d.order then .error .abort
  else do
    (List.range d.order).forM (decAssert S d h v w)
    let h ← h.free .single d.V
    let h ← (if w ≠ none then h.free .array d.W else pure h)
    pure ({ d with V := v, W := w }, h)

/-- Calls of the public interface. -/
inductive DecCall
  | init (v w : Option ℕ)
  | printV
  | printW (i : ℕ)

/-- One call (src/decomposition.cxx:54-79). -/
def decCall (S : Shapes) (d : DecObj) (h : Heap) : DecCall → Except Fault (DecObj × Heap)
  | .init v w => decInit S d h v w
  | .printV =>
    if d.V = none then .error .abort
    else do
      h.use d.V
      pure (d, h)
  | .printW i =>
    if d.W = none then .error .abort
    else do
      h.use d.W
      match (d.W.map S.cols).bind (·[i]?) with
      | none => .error .ub
      | some _ => pure (d, h)

/-- The destructor (src/decomposition.cxx:37-48): `delete V` is commented out. -/
def decDestroy (d : DecObj) (h : Heap) : Except Fault Heap := do
  let h ← h.free .array d.W
  let h ← h.free .array d.size
  h.free .array d.rank

/-- The life of an automatic object `Decomposition decom(n, s, r, dw)`. -/
def decLife (S : Shapes) (n s r : ℕ) (h : Heap) (calls : List DecCall) : Except Fault Heap := do
  let (d, h) := decConstruct n s r h
  let p ← calls.foldlM (fun p c => decCall S p.1 p.2 c) (d, h)
  decDestroy p.1 p.2

/-- A program that builds `CPD<double, Optimizer> decom(n, s, R, ..)`, calls `decom.Init(V, W, lambda)` and one `als`
(src/CP.cxx:7-45, 67-84, 109-186; src/decomposition.cxx:54-69; memory is the subject of `cpdLife`).  `g0` are the random numbers
`Init` puts into `grad_W`. -/
noncomputable def cpdSession (kind : OptKind) (n s R q : ℕ) (lr : Spec.LowRank ℝ) (lam : ℝ) (solve : Spec.Solver ℝ) (V : Tensor ℝ)
    (W : List (Tensor ℝ)) (g0 : ℕ → ℕ → ℕ → ℝ) (a : AlsArgs) (clock : ℕ → ℝ) (fuel : ℕ) :
    Except Fault (AlsEnd (OptState ℝ × Fac ℝ)) := do
  let o ← optInit ℝ n kind
  initAsserts V.lens (W.map ncol) n s R
  cpdAls kind n R lam solve q lr V a clock fuel (o, ⟨W, fillMats (List.replicate n s) R g0⟩)

/-- `TEST_CPD` (tests/test_decomposition.cxx:38-66), all that `main` (72-85) does: `v0`, `w0`, `g0` are random numbers.  The members
asserted in lines 43-44 are those set by the constructor. -/
noncomputable def testCpd (v0 : List ℕ → ℝ) (w0 g0 : ℕ → ℕ → ℕ → ℝ) (solve : Spec.Solver ℝ) (lr : Spec.LowRank ℝ) (clock : ℕ → ℝ)
    (fuel : ℕ) : Except Fault (AlsEnd (OptState ℝ × Fac ℝ)) :=
  let lens := List.replicate 6 13
  cpdSession .dt 6 13 5 0 lr 0 solve (fillT lens v0) (fillMats lens 5 w0) g0 ⟨1 / 100000, 1000, 30, 100⟩ clock fuel

end Model
