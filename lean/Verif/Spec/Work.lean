import Mathlib.Algebra.BigOperators.Group.Finset.Basic
import Mathlib.Data.Nat.Basic

/-! # Work of a computation: how large its index expressions are

An index expression `C["ik"] = A["ij"] * B["jk"]` adds up one product for every value of all its labels.  The *work* of a
computation is the list of its index expressions in the order in which they are evaluated, each with the number of products
it adds up and the number of entries of the tensor it fills. -/

namespace Spec

/-- What an index expression is for: a contraction with the input tensor as an operand, another step of the computation of a
matricised-tensor-times-Khatri-Rao product, or the rest of a factor update (Gram matrices and gradient). -/
inductive Tag
  | input
  | mttkrp
  | update
  deriving DecidableEq

/-- One evaluated index expression: what it is for, how many products it adds up, how many entries it fills. -/
structure Work where
  tag : Tag
  terms : ℕ
  out : ℕ

/-- Number of products added up by the expressions of one kind. -/
def termsOf (t : Tag) (w : List Work) : ℕ := (w.map fun e => if e.tag = t then e.terms else 0).sum

/-- Number of tensor entries filled by the expressions of one kind. -/
def storedOf (t : Tag) (w : List Work) : ℕ := (w.map fun e => if e.tag = t then e.out else 0).sum

/-- Number of expressions of one kind. -/
def countOf (t : Tag) (w : List Work) : ℕ := (w.map fun e => if e.tag = t then 1 else 0).sum

end Spec
