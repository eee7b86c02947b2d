import Verif.Model.DT
import Verif.Spec.LowRank

/-! # Low-rank variants (src/optimizer/cp_dt_lr_optimizer.cxx, cp_msdt_lr_optimizer.cxx) -/

namespace Model

variable {K : Type} [CommRing K]

/-- `'&'`, the label of the correction rank (cp_dt_lr_optimizer.cxx:147). -/
def amp : Label := 38

/-- The members `U`, `s`, `VT`. -/
structure LR (K : Type) where
  U : Tensor K
  s : Tensor K
  VT : Tensor K

/-- `get_rankR_update_cholesky(rank, U, s, VT, M, A, S, ...)` (common.cxx:768-786) as a black box with results of
shape `n × q`, `q`, `q × R` (`q` is the member `rank`; its algebra is treated in `Verif.Model.Solve`). -/
def lrT (q : ℕ) (lr : Spec.LowRank K) (M A S : Tensor K) : LR K :=
  let u := lr (nrow M) (ncol M) (mat M) (Spec.clip (nrow M) (ncol M) (mat A)) (mat S)
  ⟨⟨[nrow M, q], fun idx => match idx with
      | [x, k] => Spec.clip (nrow M) q u.1 x k
      | _ => 0⟩,
   ⟨[q], fun idx => match idx with
      | [k] => if k < q then u.2.1 k else 0
      | _ => 0⟩,
   ⟨[q, ncol M], fun idx => match idx with
      | [k, r] => Spec.clip q (ncol M) u.2.2 k r
      | _ => 0⟩⟩

/-- Low-rank branch of the loop body (cp_dt_lr_optimizer.cxx:198-211, where `A` is `W[m]`;
cp_msdt_lr_optimizer.cxx:187-201, where `A` is `old_W[m]`):
`update_S`, gradient, `W[m] = A + U s VT`. -/
def lrMode (order rank : ℕ) (lam : K) (q : ℕ) (lr : Spec.LowRank K) (f : Fac K) (m : ℕ) (A : Tensor K)
    (M : Tensor K) : Except Fault (Fac K × LR K) := do
  let S ← updateS order rank lam f.W m
  let Wm ← rd f.W m
  let WS ← einsum M.lens [li, lj] [(Wm, [li, lk]), (S, [lk, lj])]
  let g ← zipT (fun a b => -a + b) M WS
  let u := lrT q lr M A S
  let D ← einsum Wm.lens [li, lj] [(u.U, [li, lk]), (u.s, [lk]), (u.VT, [lk, lj])]
  let Wn ← zipT (· + ·) A D
  pure (⟨f.W.set m Wn, f.G.set m g⟩, u)

/-- `U["ij"] = U["ij"] * s["j"]` (cp_dt_lr_optimizer.cxx:146; cp_msdt_lr_optimizer.cxx:131). -/
def scaleU (u : LR K) : Except Fault (LR K) := do
  let U ← einsum u.U.lens [li, lj] [(u.U, [li, lj]), (u.s, [lj])]
  pure { u with U := U }

/-- `update_cached_tensor` of the DT variant (cp_dt_lr_optimizer.cxx:127-158). -/
def patchDT (order : ℕ) (V : Tensor K) (left : ℕ) (u : LR K) (c : Tensor K) :
    Except Fault (LR K × Tensor K) := do
  let u ← scaleU u
  let seqInit := (indexesOf order left).map letter ++ [star]
  let D ← einsum c.lens seqInit
    [(V, (List.range order).map letter), (u.U, [letter left, amp]), (u.VT, [amp, star])]
  let c ← zipT (· + ·) c D
  pure (u, c)

/-- `update_cached_tensor` of the MSDT variant (cp_msdt_lr_optimizer.cxx:112-157), without the bookkeeping of
`old_W` and `is_cached`. -/
def patchMSDT (order : ℕ) (q : ℕ) (V : Tensor K) (left : ℕ) (u : LR K) (c : Tensor K) :
    Except Fault (LR K × Tensor K) := do
  let u ← scaleU u
  let seqInit := (indexesOf order left).map letter ++ [star]
  let seqTemp := ((List.range order).map letter).set left amp
  let temp ← einsum (V.lens.set left q) seqTemp
    [(V, (List.range order).map letter), (u.U, [letter left, amp])]
  let D ← einsum c.lens seqInit [(u.VT, [amp, star]), (temp, seqTemp)]
  let c ← zipT (· + ·) c D
  pure (u, c)

/-- Members of `CPDTLROptimizer` that persist between steps (cp_dt_lr_optimizer.h). -/
structure DTLRState (K : Type) where
  base : DTState
  count : ℕ
  low : Bool
  c1 : Option (Tensor K)
  c2 : Option (Tensor K)
  u : LR K

/-- Constructor (cp_dt_lr_optimizer.cxx:8-30); `num_subiteration` is the constant 5 (line 19); `U`, `s`, `VT` are
default-constructed. -/
def dtlrInit (order : ℕ) : Except Fault (DTLRState K) := do
  let b ← dtInit order
  pure ⟨b, 0, false, none, none, ⟨⟨[], fun _ => 0⟩, ⟨[], fun _ => 0⟩, ⟨[], fun _ => 0⟩⟩⟩

/-- `mttkrp_map_init` (cp_dt_lr_optimizer.cxx:38-97): the top of the tree, patched or recomputed, and the new members.
Dereferencing a null cache pointer is `ub`. -/
def dtlrTop (order : ℕ) (V : Tensor K) (W : List (Tensor K)) (left : ℕ) (o : DTLRState K) :
    Except Fault (Tensor K × DTLRState K) :=
  if o.low ∧ o.count > 1 then
    match (if o.base.first then o.c1 else o.c2) with
    | none => .error .ub
    | some c => do
      let r ← patchDT order V left o.u c
      pure (r.2, if o.base.first then { o with u := r.1, c1 := some r.2 }
        else { o with u := r.1, c2 := some r.2 })
  else do
    let T ← topT order V W left
    pure (T, if o.base.first then { o with c1 := some T } else { o with c2 := some T })

/-- What the loop of a low-rank step carries: factors and gradients, `U`/`s`/`VT`, `low_rank_decomp`. -/
abbrev LRLoop (K : Type) := Fac K × LR K × Bool

/-- Update inside the loop of `CPDTLROptimizer::step` (cp_dt_lr_optimizer.cxx:197-214). -/
def dtlrUpd (order rank : ℕ) (lam : K) (solve : Spec.Solver K) (q : ℕ) (lr : Spec.LowRank K)
    (n : ℕ) (first : Bool) (count : ℕ) (s : LRLoop K) (i m : ℕ) (M : Tensor K) :
    Except Fault (LRLoop K) :=
  if ((first ∧ i = n - 1) ∨ (¬ first ∧ i = 0)) ∧ count ≥ 1 then do
    let A ← rd s.1.W m
    let r ← lrMode order rank lam q lr s.1 m A M
    pure (r.1, r.2, true)
  else do
    let f ← updateMode order rank lam solve s.1 m M
    pure (f, s.2)

/-- Bookkeeping at the end of `CPDTLROptimizer::step` (cp_dt_lr_optimizer.cxx:216-233). -/
def dtlrFinish (order : ℕ) (o : DTLRState K) : DTLRState K :=
  let count := if o.base.first then o.count else o.count + 1
  let o := { o with count := count }
  let o := if count = 5 ∧ o.base.first = false then
      let special := (o.base.special + 1) % (order - 1)
      let left1 := if special ≠ 0 then (o.base.left1 + order - 1) % order else order - 1
      let left2 := if special ≠ 0 then (o.base.left2 + order - 1) % order
        else (order - 1 + order - 1) % order
      { o with
        count := 0
        low := false
        base := { o.base with
          special := special
          left1 := left1
          left2 := left2
          indexes1 := indexesOf order left1
          indexes2 := indexesOf order left2 } }
    else o
  { o with base := { o.base with first := !o.base.first } }

/-- `CPDTLROptimizer::step` (cp_dt_lr_optimizer.cxx:160-236); it returns 0.5 sweeps. -/
def dtlrStep (order rank : ℕ) (lam : K) (solve : Spec.Solver K) (q : ℕ) (lr : Spec.LowRank K)
    (V : Tensor K) (s : DTLRState K × Fac K) : Except Fault (DTLRState K × Fac K) := do
  let b := s.1.base
  let indexes := if b.first then b.indexes1 else b.indexes2
  let left := if b.first then b.left1 else b.left2
  let t ← dtlrTop order V s.2.W left s.1
  let o := t.2
  let r ← (dtPositions indexes.length b.special b.first).foldlM
    (treeBody order b.tree V indexes (fun q : LRLoop K => q.1.W)
      (dtlrUpd order rank lam solve q lr indexes.length b.first o.count))
    ((s.2, o.u, o.low), [(topKey order, t.1)])
  pure (dtlrFinish order { o with u := r.1.2.1, low := r.1.2.2 }, r.1.1)

/-- Members of `CPMSDTLROptimizer` that persist between steps (cp_msdt_lr_optimizer.h).  An entry of `cached`/`old` is
meaningful where `isCached` is set (default-constructed otherwise). -/
structure MSDTLRState (K : Type) where
  base : MSDTState
  low : Bool
  isCached : List Bool
  cached : List (Tensor K)
  old : List (Tensor K)
  u : LR K

/-- Constructor (cp_msdt_lr_optimizer.cxx:8-27). -/
def msdtlrInit (order : ℕ) : Except Fault (MSDTLRState K) := do
  let b ← msdtInit order
  pure ⟨b, false, List.replicate order false, List.replicate order ⟨[], fun _ => 0⟩,
    List.replicate order ⟨[], fun _ => 0⟩, ⟨⟨[], fun _ => 0⟩, ⟨[], fun _ => 0⟩, ⟨[], fun _ => 0⟩⟩⟩

/-- `mttkrp_map_init` (cp_msdt_lr_optimizer.cxx:35-82, 155-156). -/
def msdtlrTop (order q : ℕ) (V : Tensor K) (W : List (Tensor K)) (left : ℕ) (o : MSDTLRState K) :
    Except Fault (Tensor K × MSDTLRState K) := do
  let b ← rd o.isCached left
  let Wl ← rd W left
  if o.low ∧ b then do
    let c ← rd o.cached left
    let r ← patchMSDT order q V left o.u c
    pure (r.2, { o with u := r.1, cached := o.cached.set left r.2, old := o.old.set left Wl,
                        isCached := o.isCached.set left true })
  else do
    let T ← topT order V W left
    pure (T, { o with cached := o.cached.set left T, old := o.old.set left Wl,
                      isCached := o.isCached.set left true })

/-- Update inside the loop of `CPMSDTLROptimizer::step` (cp_msdt_lr_optimizer.cxx:186-202). -/
def msdtlrUpd (order rank : ℕ) (lam : K) (solve : Spec.Solver K) (q : ℕ) (lr : Spec.LowRank K)
    (n : ℕ) (isCached : List Bool) (old : List (Tensor K)) (s : LRLoop K) (i m : ℕ) (M : Tensor K) :
    Except Fault (LRLoop K) := do
  let b ← rd isCached m
  if ¬ b ∨ i ≠ n - 1 then do
    let f ← updateMode order rank lam solve s.1 m M
    pure (f, s.2)
  else do
    let A ← rd old m
    let r ← lrMode order rank lam q lr s.1 m A M
    pure (r.1, r.2, true)

/-- `CPMSDTLROptimizer::step` (cp_msdt_lr_optimizer.cxx:159-205); it returns `(order-1)/order` sweeps. -/
def msdtlrStep (order rank : ℕ) (lam : K) (solve : Spec.Solver K) (q : ℕ) (lr : Spec.LowRank K)
    (V : Tensor K) (s : MSDTLRState K × Fac K) : Except Fault (MSDTLRState K × Fac K) := do
  let left := (s.1.base.left + order - 1) % order
  let indexes := indexesOf order left
  let t ← msdtlrTop order q V s.2.W left s.1
  let o := t.2
  let r ← (List.range indexes.length).foldlM
    (treeBody order s.1.base.tree V indexes (fun q : LRLoop K => q.1.W)
      (msdtlrUpd order rank lam solve q lr indexes.length o.isCached o.old))
    ((s.2, o.u, o.low), [(topKey order, t.1)])
  pure ({ o with base := ⟨left, indexes, s.1.base.tree⟩, u := r.1.2.1, low := r.1.2.2 }, r.1.1)

end Model
