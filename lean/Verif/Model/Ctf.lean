import Mathlib.Algebra.BigOperators.Ring.Finset
import Mathlib.Data.Fintype.Pi

/-!
# Model of the CTF tensor expressions used by the code

CTF (Cyclops Tensor Framework) is the external library all numerical code in /repo is written with.
This file is the trusted description of the part of its interface the code uses (index expressions such as
`C["ik"] = A["ij"] * B["jk"]`, e.g. common.cxx:957, cp_als_optimizer.cxx:33).  Simplifications:
`double` is an arbitrary commutative (semi)ring, data distribution over MPI ranks is not modelled.
-/

namespace Model

/-- Abnormal outcomes.  `abort`: CTF prints an error and aborts (edge lengths of one label differ).
`ub`: undefined behaviour of the C++ program (out-of-bounds access, dereferenced null pointer,
index string shorter than the order, division by zero ...).  `diverge`: unbounded recursion. -/
inductive Fault
  | abort
  | ub
  | diverge
  deriving DecidableEq, Repr

/-- A C `char`, as its signed 8-bit code. -/
abbrev Label := ℤ

/-- The value of the C expression `(char)('a' + j)` on a machine with signed 8-bit `char`
(the expression `'a' + j` occurs throughout common.cxx, als_CP.cxx, als_Tucker.cxx, src/optimizer). -/
def letter (j : ℕ) : Label := (97 + (j : ℤ) + 128) % 256 - 128

/-- `'*'`, the rank label of the dimension trees (e.g. common.cxx:16). -/
def star : Label := 42

/-- A dense tensor: edge lengths and a value for every multi-index (zero outside the box).
Models `CTF::Tensor<>` / `CTF::Matrix<>` (lens = [nrow, ncol]). -/
structure Tensor (K : Type) where
  lens : List ℕ
  val : List ℕ → K

/-- Is `idx` a valid multi-index for edge lengths `lens`? -/
def fits : List ℕ → List ℕ → Bool
  | [], [] => true
  | n :: ns, x :: xs => decide (x < n) && fits ns xs
  | _, _ => false

/-- Bind the labels of an output string to the entries of a multi-index. -/
def bindIdx : List Label → List ℕ → Label → ℕ
  | l :: ls, x :: xs => Function.update (bindIdx ls xs) l x
  | _, _ => fun _ => 0

/-- Sum `f` over all values of the given labels, each with its extent. -/
def sumOver {K : Type} [AddCommMonoid K] :
    List (Label × ℕ) → ((Label → ℕ) → K) → (Label → ℕ) → K
  | [], f, env => f env
  | (l, n) :: rest, f, env => ∑ x ∈ Finset.range n, sumOver rest f (Function.update env l x)

/-- Label/extent pairs of an operand. -/
def opTable {K : Type} (o : Tensor K × List Label) : List (Label × ℕ) := o.2.zip o.1.lens

/-- CTF's edge-length check: equal labels have equal extents. -/
def tableOk (tab : List (Label × ℕ)) : Bool :=
  tab.all fun p => tab.all fun q => decide (p.1 = q.1 → p.2 = q.2)

/-- Labels that are summed: those of the operands that do not occur in the output. -/
def contracted {K : Type} (sc : List Label) (ops : List (Tensor K × List Label)) : List Label :=
  ((ops.flatMap fun o => o.2).dedup).filter fun l => decide (l ∉ sc)

/-- Extent of a label according to the table. -/
def extent (tab : List (Label × ℕ)) (l : Label) : ℕ := (tab.lookup l).getD 0

/-- Value computed at multi-index `idx` of the output. -/
def einsumVal {K : Type} [CommSemiring K] (lensC : List ℕ) (sc : List Label)
    (ops : List (Tensor K × List Label)) (idx : List ℕ) : K :=
  if fits lensC idx = true ∧ sc.map (bindIdx sc idx) = idx then
    sumOver ((contracted sc ops).map fun l => (l, extent (ops.flatMap opTable) l))
      (fun env => (ops.map fun o => o.1.val (o.2.map env)).prod) (bindIdx sc idx)
  else 0

/-- `C[sc] = A₁[s₁] * A₂[s₂] * ...` where `C` was declared with edge lengths `lensC`.
CTF reads exactly `order` characters of each index string. A repeated output label writes the (generalised) diagonal
only; the other entries of the freshly declared tensor are zero. -/
def einsum {K : Type} [CommSemiring K] (lensC : List ℕ) (sc : List Label)
    (ops : List (Tensor K × List Label)) : Except Fault (Tensor K) :=
  if sc.length < lensC.length ∨ ∃ o ∈ ops, o.2.length < o.1.lens.length then .error .ub
  else
    let sc := sc.take lensC.length
    let ops := ops.map fun o => (o.1, o.2.take o.1.lens.length)
    if tableOk (sc.zip lensC ++ ops.flatMap opTable) then
      .ok ⟨lensC, einsumVal lensC sc ops⟩
    else .error .abort

/-- `a[j]` on a C array of known length: out-of-bounds is `ub`. -/
def rd {α : Type} (a : List α) (j : ℤ) : Except Fault α :=
  if 0 ≤ j then
    match a[j.toNat]? with
    | some x => .ok x
    | none => .error .ub
  else .error .ub

/-- Pointwise combination of two tensors of equal shape, e.g. `C["ij"] = A["ij"] - B["ij"]`. -/
def zipT {K : Type} [Zero K] (f : K → K → K) (A B : Tensor K) : Except Fault (Tensor K) :=
  if A.lens = B.lens then
    .ok ⟨A.lens, fun idx => if fits A.lens idx = true then f (A.val idx) (B.val idx) else 0⟩
  else .error .abort

end Model
