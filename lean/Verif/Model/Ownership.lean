import Verif.Model.AlsLoop

/-! # Ownership of the arrays of a CP decomposition object (src/decomposition.*, src/CP.*, src/optimizer/*)

An abstract heap: addresses are never reused, so an address that is not live is either unallocated or freed, and using or
freeing it is undefined behaviour. Shapes (the other assertions of `Init`) are the subject of `Model.Run`. -/

namespace Model

/-- Allocated by `new` or by `new[]`. -/
inductive BlockKind
  | single
  | array
  deriving DecidableEq

/-- The heap: live blocks, automatic objects (usable, not deletable), next fresh address. -/
structure Heap where
  live : ℕ → Option BlockKind
  auto : ℕ → Bool
  next : ℕ

/-- `new T` / `new T[n]`. -/
def Heap.alloc (h : Heap) (k : BlockKind) : ℕ × Heap := (h.next, ⟨Function.update h.live h.next (some k), h.auto, h.next + 1⟩)

/-- `delete p` / `delete[] p`: nothing for the null pointer, undefined behaviour for anything but a live block of that kind. -/
def Heap.free (h : Heap) (k : BlockKind) : Option ℕ → Except Fault Heap
  | none => .ok h
  | some p => if h.live p = some k then .ok ⟨Function.update h.live p none, h.auto, h.next⟩ else .error .ub

/-- Use of `*p` or `p[i]`. -/
def Heap.use (h : Heap) : Option ℕ → Except Fault Unit
  | none => .error .ub
  | some p => if (h.live p).isSome ∨ h.auto p = true then .ok () else .error .ub

/-- The pointer members of `CPD<dtype, Optimizer>` (src/decomposition.h:36-43, src/CP.h:17-19) and of its optimizer
(src/optimizer/cp_als_optimizer.h:25-30, cp_dt_lr_optimizer.h:32-36, cp_msdt_lr_optimizer.h:32-34). `first` is the flag
`first_subtree` of the DT optimizers. -/
structure CpdObj where
  kind : OptKind
  size : Option ℕ
  rank : Option ℕ
  V : Option ℕ
  W : Option ℕ
  gradW : Option ℕ
  optimizer : Option ℕ
  oV : Option ℕ
  oW : Option ℕ
  oGrad : Option ℕ
  cached1 : Option ℕ
  cached2 : Option ℕ
  isCached : Option ℕ
  cachedTensors : Option ℕ
  oldW : Option ℕ
  first : Bool

/-- Constructors of `CPD` (src/decomposition.cxx:7-17, src/CP.cxx:7-45) with those of the optimizers
(cp_dt_lr_optimizer.cxx:8-24, cp_msdt_lr_optimizer.cxx:8-27). The constructor taking `int *size` (src/decomposition.cxx:20-31)
writes through the uninitialised pointer `world` and is not modelled. -/
def cpdConstruct (kind : OptKind) (h : Heap) : CpdObj × Heap :=
  let (s, h) := h.alloc .array
  let (r, h) := h.alloc .array
  let (o, h) := h.alloc .single
  if kind = .msdtlr then
    let (a, h) := h.alloc .array
    let (b, h) := h.alloc .array
    let (c, h) := h.alloc .array
    (⟨kind, some s, some r, none, none, none, some o, none, none, none, none, none, some a, some b, some c, true⟩, h)
  else
    (⟨kind, some s, some r, none, none, none, some o, none, none, none, none, none, none, none, none, true⟩, h)

/-- `Decomposition::Init` (src/decomposition.cxx:54-69). -/
def decompInit (d : CpdObj) (h : Heap) (v w : Option ℕ) : Except Fault (CpdObj × Heap) := do
  h.use v
  h.use d.size
  h.use w
  h.use d.rank
  let h ← h.free .single d.V
  let h ← (if w ≠ none then h.free .array d.W else pure h)
  pure ({ d with V := v, W := w }, h)

/-- `CPOptimizer::configure` (src/optimizer/cp_als_optimizer.cxx:40-65). -/
def configure (d : CpdObj) (h : Heap) (v w g : Option ℕ) : Except Fault (CpdObj × Heap) := do
  h.use v
  h.use w
  let h ← h.free .single d.oV
  let h ← h.free .array d.oW
  let h ← h.free .array d.oGrad
  h.use w
  pure ({ d with oV := v, oW := w, oGrad := g }, h)

/-- `CPD::Init` (src/CP.cxx:67-83). -/
def cpdInit (d : CpdObj) (h : Heap) (v w : Option ℕ) : Except Fault (CpdObj × Heap) := do
  let (d, h) ← decompInit d h v w
  let h ← h.free .array d.gradW
  let (g, h) := h.alloc .array
  let d := { d with gradW := some g }
  h.use d.optimizer
  configure d h v w (some g)

/-- Pointer accesses of one optimizer step: `V`, `W`, `grad_W` of the optimizer; `CPDTLROptimizer::mttkrp_map_init` allocates the
cache of the current subtree the first time (cp_dt_lr_optimizer.cxx:85-95), `CPMSDTLROptimizer` uses its three arrays. -/
def cpdStep (d : CpdObj) (h : Heap) : Except Fault (CpdObj × Heap) := do
  h.use d.optimizer
  h.use d.oV
  h.use d.oW
  h.use d.oGrad
  match d.kind with
  | .dtlr =>
    if d.first then
      match d.cached1 with
      | none =>
        let (c, h) := h.alloc .single
        pure ({ d with cached1 := some c, first := false }, h)
      | some c => do
        h.use (some c)
        pure ({ d with first := false }, h)
    else
      match d.cached2 with
      | none =>
        let (c, h) := h.alloc .single
        pure ({ d with cached2 := some c, first := true }, h)
      | some c => do
        h.use (some c)
        pure ({ d with first := true }, h)
  | .msdtlr => do
    h.use d.isCached
    h.use d.cachedTensors
    h.use d.oldW
    pure (d, h)
  | _ => pure (d, h)

/-- Pointer accesses of one `als` call (src/CP.cxx:111-194): nothing if the loop is not entered (`maxsweep < 0`), otherwise the
checks use `grad_W`, `W`, `V`, and there are `steps` optimizer steps. Checks are taken to happen before every step. -/
def cpdAlsAcc : ℕ → CpdObj → Heap → Except Fault (CpdObj × Heap)
  | 0, d, h => do
    h.use d.gradW
    h.use d.W
    h.use d.V
    pure (d, h)
  | n + 1, d, h => do
    h.use d.gradW
    h.use d.W
    h.use d.V
    let (d, h) ← cpdStep d h
    cpdAlsAcc n d h

/-- The optimizers' destructors (cp_dt_lr_optimizer.cxx:32-36, cp_msdt_lr_optimizer.cxx:29-33; the others are empty). -/
def optDestroy (d : CpdObj) (h : Heap) : Except Fault Heap :=
  match d.kind with
  | .dtlr => do
    let h ← h.free .single d.cached1
    h.free .single d.cached2
  | .msdtlr => do
    let h ← h.free .array d.isCached
    h.free .array d.cachedTensors
  | _ => pure h

/-- `~CPD` (src/CP.cxx:92-99), the optimizer's destructor, then
`~Decomposition` (src/decomposition.cxx:37-48; `delete V` is commented out). -/
def cpdDestroy (d : CpdObj) (h : Heap) : Except Fault Heap := do
  let h ← h.free .array d.gradW
  let h ← optDestroy d h
  let h ← h.free .single d.optimizer
  let h ← h.free .array d.W
  let h ← h.free .array d.size
  h.free .array d.rank

/-- A call of the public interface. -/
inductive CpdCall
  | init (v w : Option ℕ)
  | als (entered : Bool) (steps : ℕ)

/-- One call. -/
def cpdCall (d : CpdObj) (h : Heap) : CpdCall → Except Fault (CpdObj × Heap)
  | .init v w => cpdInit d h v w
  | .als false _ => .ok (d, h)
  | .als true n => cpdAlsAcc n d h

/-- A sequence of calls. -/
def cpdCalls (d : CpdObj) (h : Heap) (calls : List CpdCall) : Except Fault (CpdObj × Heap) :=
  calls.foldlM (fun s c => cpdCall s.1 s.2 c) (d, h)

/-- The life of an automatic object `CPD decom(...)`: constructor, calls, destructor. -/
def cpdLife (kind : OptKind) (h : Heap) (calls : List CpdCall) : Except Fault Heap := do
  let (d, h) := cpdConstruct kind h
  let (d, h) ← cpdCalls d h calls
  cpdDestroy d h

/-- The same with a copy `CPD copy = decom;` (implicit copy constructor, all pointers shared) destroyed first. -/
def cpdCopyLife (kind : OptKind) (h : Heap) (calls : List CpdCall) : Except Fault Heap := do
  let (d, h) := cpdConstruct kind h
  let (d, h) ← cpdCalls d h calls
  let h ← cpdDestroy d h
  cpdDestroy d h

end Model
