import Verif.Model.DT
import Verif.Model.Build

/-! # The legacy dimension-tree ALS (common.cxx:20-133, 225-270; als_CP.cxx:127-320) -/

namespace Model

variable {K : Type}

/-- The maps `parent` and `sibling` (als_CP.cxx:162-163); latest insertion first. -/
structure LTree where
  parent : List (Key × Key) := []
  sibling : List (Key × Key) := []

/-- `parent[k] = p; sibling[k] = s;` -/
def LTree.record (t : LTree) (k p s : Key) : LTree := ⟨(k, p) :: t.parent, (k, s) :: t.sibling⟩

/-- The string of the letters `start..last` (the loops common.cxx:247-260).  Strings are modelled as lists of characters;
they contain no NUL as long as `last < 159`. -/
def strOf (start last : ℕ) : Key := (List.range' start (last + 1 - start)).map letter

/-- `Construct_Dimension_Tree` (common.cxx:225-270).  Simplification: the arguments are naturals with
`start <= last` (all calls satisfy this when `V.order >= 1`). -/
def constructDT (start last : ℕ) (t : LTree) : LTree :=
  if last ≤ start then t
  else if last = start + 1 then
    (t.record [letter start] [letter start, letter last] [letter last]).record
      [letter last] [letter start, letter last] [letter start]
  else
    let middle := (start + last) / 2
    let t := t.record (strOf start middle) (strOf start last) (strOf (middle + 1) last)
    let t := constructDT start middle t
    let t := t.record (strOf (middle + 1) last) (strOf start last) (strOf start middle)
    constructDT (middle + 1) last t
termination_by last - start

/-- The traversal common to `mttkrp_map_DT` (common.cxx:20-133) and `ttmc_map_DT` (als_Tucker.cxx:178-230): a key already
present is kept; a key whose length is `order/2` or `order/2 + 1` is computed from the input tensor by `fromRoot`; any
other key from its parent, which is computed first if necessary.  The recursion is bounded by fuel; running out of it is
`diverge`. -/
def dtNode {τ : Type} (order : ℕ) (tree : LTree) (fromRoot : Key → Except Fault τ)
    (fromParent : Key → τ → Except Fault τ) : ℕ → Key → List (Key × τ) → Except Fault (List (Key × τ))
  | 0, _, _ => .error .diverge
  | fuel + 1, args, cache =>
    if (cache.lookup args).isSome then .ok cache
    else if args.length = order / 2 ∨ args.length = order / 2 + 1 then do
      let T ← fromRoot args
      pure ((args, T) :: cache)
    else do
      let p := mapGet tree.parent args
      let cache ← (if (cache.lookup p).isNone then dtNode order tree fromRoot fromParent fuel p cache else pure cache)
      match cache.lookup p with
      | none => .error .ub
      | some Tp => do
        let T ← fromParent args Tp
        pure ((args, T) :: cache)

variable [CommRing K]

/-- The contraction loops of `mttkrp_map_DT` (common.cxx:41-83 and 103-130): the modes of the sibling are contracted one
after the other.  `p` and `sb` are the strings of the parent and the sibling, `lens0` the edge lengths of the modes of the
parent, `start` is `index_start`, `wat j c` the matrix contracted in pass `j` (whose sibling letter is `c`).  The first
contraction of the first branch (lines 36-60) has the same form as the passes of its loop with `j = 0`. -/
def sibLoop (p sb : Key) (lens0 : List ℕ) (R start : ℕ) (wat : ℕ → Label → Except Fault (Tensor K)) (T0 : Tensor K)
    (seq0 : Key) : Except Fault (Tensor K) := do
  let r ← (List.range sb.length).foldlM (fun (s : Tensor K × Key) (j : ℕ) => do
    let c ← rd sb j
    let seqF := p.take start ++ p.drop (start + j + 1) ++ [star]
    let lens := lens0.take start ++ lens0.drop (start + j + 1) ++ [R]
    let Wj ← wat j c
    let T ← einsum lens seqF [(s.1, s.2), (Wj, [c, star])]
    pure (T, seqF)) (T0, seq0)
  pure r.1

/-- First branch of `mttkrp_map_DT` (common.cxx:29-87).  If `parent[args]` is not the string of all modes, the code reads
characters outside it and outside the initialised part of `seq`. -/
def cpFromRoot (order : ℕ) (tree : LTree) (V : Tensor K) (W : List (Tensor K)) (args : Key) :
    Except Fault (Tensor K) := do
  let W0 ← rd W 0
  let p := mapGet tree.parent args
  let sb := mapGet tree.sibling args
  let c0 ← rd sb 0
  if p.length ≠ order ∨ c0 < 97 ∨ (order : ℤ) ≤ c0 - 97 then .error .ub
  else sibLoop p sb V.lens (ncol W0) (c0 - 97).toNat (fun j _ => rd W ((c0 - 97).toNat + j)) V p

/-- Second branch of `mttkrp_map_DT` (common.cxx:92-131), given the tensor of the parent. -/
def cpFromParent (tree : LTree) (W : List (Tensor K)) (args : Key) (Tp : Tensor K) : Except Fault (Tensor K) := do
  let W0 ← rd W 0
  let p := mapGet tree.parent args
  let sb := mapGet tree.sibling args
  let c0 ← rd sb 0
  let p0 ← rd p 0
  if p.length + 1 ≠ Tp.lens.length ∨ c0 < p0 then .error .ub
  else sibLoop p sb Tp.lens.dropLast (ncol W0) (c0 - p0).toNat (fun _ c => rd W (decode c)) Tp (p ++ [star])

/-- `mttkrp_map_DT` (common.cxx:20-133). -/
def cpMapDT (order : ℕ) (tree : LTree) (V : Tensor K) (W : List (Tensor K)) (fuel : ℕ) (args : Key) (cache : Cache K) :
    Except Fault (Cache K) :=
  dtNode order tree (cpFromRoot order tree V W) (cpFromParent tree W) fuel args cache

/-- The matrix `M` of mode `i` (als_CP.cxx:231-284; identical in alsCP_DT_sub, als_CP.cxx:517-570): make the parent of the
leaf available and contract it with the factors of the one or two other modes. -/
def legacyM (order : ℕ) (tree : LTree) (V : Tensor K) (W : List (Tensor K)) (cache : Cache K) (i : ℕ) :
    Except Fault (Tensor K × Cache K) := do
  let a0 := letter i
  let p := mapGet tree.parent [a0]
  let sb := mapGet tree.sibling [a0]
  let cache ← (if (cache.lookup p).isNone then cpMapDT order tree V W (order + 1) p cache else pure cache)
  let Wi ← rd W i
  let p0 ← rd p 0
  let p1 ← rd p 1
  match cache.lookup p with
  | none => .error .ub
  | some Tp =>
    if sb.length = 1 then do
      let c := if p0 = a0 then p1 else p0
      let Wc ← rd W (decode c)
      let M ← einsum [nrow Wi, ncol Wi] [a0, star] [(Tp, [p0, p1, star]), (Wc, [c, star])]
      pure (M, cache)
    else do
      let p2 ← rd p 2
      let c1 := if p0 = a0 then p1 else p0
      let c2 := if p0 = a0 then p2 else p1
      let W1 ← rd W (decode c1)
      let W2 ← rd W (decode c2)
      let M ← einsum [nrow Wi, ncol Wi] [a0, star] [(Tp, [p0, p1, p2, star]), (W1, [c1, star]), (W2, [c2, star])]
      pure (M, cache)

/-- The vector `index` without its last entry (als_CP.cxx:215-230): the modes in order, with `i` replaced by the last. -/
def swapIdx (order i : ℕ) : List ℕ := (List.range (order - 1)).map fun j => if j = i then order - 1 else j

/-- Update of mode `i` (als_CP.cxx:210-302): `M`, `S`, `M += F[i]`, gradient, `SVD_solve`. -/
def legacyUpdate (order rank : ℕ) (lam : K) (solve : Spec.Solver K) (tree : LTree) (V : Tensor K)
    (F : List (Tensor K)) (s : Fac K × Cache K) (i : ℕ) : Except Fault (Fac K × Cache K) := do
  let r ← legacyM order tree V s.1.W s.2 i
  let S ← gramS (swapIdx order i) rank lam s.1.W
  let Fi ← rd F i
  let M ← zipT (· + ·) r.1 Fi
  let f ← modeTail solve s.1 i M S
  pure (f, r.2)

/-- The updates of one sweep of `alsCP_DT`, before `Normalize` (als_CP.cxx:207-303). -/
def legacyUpdates (order rank : ℕ) (lam : K) (solve : Spec.Solver K) (V : Tensor K) (F : List (Tensor K)) (f : Fac K) :
    Except Fault (Fac K) := do
  let tree := constructDT 0 (order - 1) {}
  let r ← (List.range order).foldlM (legacyUpdate order rank lam solve tree V F) (f, [])
  pure r.1

/-- One sweep of `alsCP_DT` (als_CP.cxx:207-304). -/
noncomputable def legacySweep (order rank : ℕ) (lam : ℝ) (solve : Spec.Solver ℝ) (V : Tensor ℝ) (F : List (Tensor ℝ))
    (f : Fac ℝ) : Except Fault (Fac ℝ) := do
  let f ← legacyUpdates order rank lam solve V F f
  let W ← normalize f.W order
  pure ⟨W, f.G⟩

end Model
