import Verif.Model.CPOpt

/-! # Dimension-tree optimizers (src/optimizer/cp_dt_optimizer.cxx, cp_msdt_optimizer.cxx) -/

namespace Model

variable {K : Type} [CommRing K]

/-- Node keys are strings: position letters followed by `'*'`. -/
abbrev Key := List Label

/-- `vec2str` (common.cxx:10-18). -/
def vec2str (v : List ℕ) : Key := v.map letter ++ [star]

/-- The members `parent` and `contract_index` (cp_dt_optimizer.h): `std::map`s, latest insertion first. -/
structure Tree where
  parent : List (Key × Key) := []
  cidx : List (Key × Key) := []

/-- `parent[k] = p; contract_index[k] = c;` -/
def Tree.insert (t : Tree) (k p c : Key) : Tree := ⟨(k, p) :: t.parent, (k, c) :: t.cidx⟩

/-- `map[key]` on a `map<string,string>`: a missing key yields the empty string. -/
def mapGet (m : List (Key × Key)) (k : Key) : Key := (m.lookup k).getD []

/-- `Right_Subtree` (cp_dt_optimizer.cxx:101-123; cp_msdt_optimizer.cxx:83-105).  A top node with fewer than two entries
indexes outside `child_node` / `top_node`. -/
def rightSubtree (top : List ℕ) (t : Tree) : Except Fault Tree :=
  if h : top.length < 2 then .error .ub
  else
    let child := top.dropLast.dropLast ++ [top.getLast (by rintro rfl; simp at h)]
    let matIdx := [top.getD (top.length - 2) 0]
    let t := t.insert (vec2str child) (vec2str top) (vec2str matIdx)
    if child.length > 1 then rightSubtree child t else .ok t
termination_by top.length
decreasing_by simp; omega

/-- `Construct_Subtree` (cp_dt_optimizer.cxx:77-99; cp_msdt_optimizer.cxx:59-81). -/
def constructSubtree (top : List ℕ) (t : Tree) : Except Fault Tree := do
  let t ← rightSubtree top t
  let matIdx := [top.getD (top.length - 1) 0]
  let t := t.insert (vec2str top.dropLast) (vec2str top) (vec2str matIdx)
  if _h : top.dropLast.length > 1 then constructSubtree top.dropLast t else pure t
termination_by top.length
decreasing_by simp at _h ⊢; omega

/-- `Construct_Dimension_Tree` (cp_dt_optimizer.cxx:66-75; cp_msdt_optimizer.cxx:48-57). -/
def constructTree (order : ℕ) : Except Fault Tree := constructSubtree (List.range (order - 1)) {}

/-- `update_indexes` (cp_dt_optimizer.cxx:51-64; cp_msdt_optimizer.cxx:34-46): all modes but `left`, cyclically from
`left + 1`. -/
def indexesOf (order left : ℕ) : List ℕ :=
  List.range' (left + 1) (order - (left + 1)) ++ List.range left

/-- The member `mttkrp_map`. -/
abbrev Cache (K : Type) := List (Key × Tensor K)

/-- Edge lengths for a key: `'*'` gives the rank, a letter the length of the mode it decodes to
(cp_dt_optimizer.cxx:150-155). -/
def lensInit (V : Tensor K) (W : List (Tensor K)) (s : Key) : Except Fault (List ℕ) :=
  s.mapM fun c =>
    if c = star then do
      let W0 ← rd W 0
      pure (ncol W0)
    else rd V.lens (decode c)

/-- `seq_tree_top`: the key of the top of the tree (cp_dt_optimizer.cxx:17-24; cp_msdt_optimizer.cxx:15-22). -/
def topKey (order : ℕ) : Key := (List.range (order - 1)).map letter ++ [star]

/-- The contraction of `mttkrp_map_init` (cp_dt_optimizer.cxx:125-160; cp_msdt_optimizer.cxx:107-142;
cp_dt_lr_optimizer.cxx:47-84; cp_msdt_lr_optimizer.cxx:44-77): `V` contracted with `W[left]`. -/
def topT (order : ℕ) (V : Tensor K) (W : List (Tensor K)) (left : ℕ) : Except Fault (Tensor K) := do
  let seqInit := (indexesOf order left).map letter ++ [star]
  let seqMatrix := [letter left, star]
  let lens ← lensInit V W seqInit
  let Wl ← rd W left
  einsum lens seqInit [(V, (List.range order).map letter), (Wl, seqMatrix)]

/-- `mttkrp_map_init` of the DT and MSDT optimizers, after `mttkrp_map.clear()`. -/
def mapInit (order : ℕ) (V : Tensor K) (W : List (Tensor K)) (left : ℕ) :
    Except Fault (Cache K) := do
  let T ← topT order V W left
  pure [(topKey order, T)]

/-- Edge lengths of a tree node (cp_dt_optimizer.cxx:175-180): letters are positions in `indexes`. -/
def lensNode (V : Tensor K) (W : List (Tensor K)) (indexes : List ℕ) (s : Key) :
    Except Fault (List ℕ) :=
  s.mapM fun c =>
    if c = star then do
      let W0 ← rd W 0
      pure (ncol W0)
    else do
      let m ← rd indexes (decode c)
      rd V.lens m

/-- `mttkrp_map_DT` (cp_dt_optimizer.cxx:161-185; cp_msdt_optimizer.cxx:144-170).  The recursion on the parent
is bounded by fuel; running out of it is `diverge`. -/
def mttkrpMapDT (tree : Tree) (indexes : List ℕ) (V : Tensor K) (W : List (Tensor K)) :
    ℕ → Key → Cache K → Except Fault (Cache K)
  | 0, _, _ => .error .diverge
  | fuel + 1, key, cache => do
    let parent := mapGet tree.parent key
    let cache ← (if (cache.lookup parent).isNone then
        mttkrpMapDT tree indexes V W fuel parent cache
      else pure cache)
    let matIdx := mapGet tree.cidx key
    let c0 ← rd matIdx 0
    let lens ← lensNode V W indexes key
    let m ← rd indexes (decode c0)
    let Wm ← rd W m
    match cache.lookup parent with
    | none => .error .ub
    | some Tp => do
      let T ← einsum lens key [(Tp, parent), (Wm, matIdx)]
      pure ((key, T) :: cache)

/-- First half of the loop body of `step` (cp_dt_optimizer.cxx:216-224; cp_msdt_optimizer.cxx:187-195; identical in
cp_dt_lr_optimizer.cxx:187-195 and cp_msdt_lr_optimizer.cxx:176-184): look the leaf up, computing it if it is missing. -/
def treeM (order : ℕ) (tree : Tree) (V : Tensor K) (indexes : List ℕ) (W : List (Tensor K))
    (cache : Cache K) (i : ℕ) : Except Fault (Tensor K × Cache K) := do
  let key := vec2str [i]
  let cache ← (if (cache.lookup key).isNone then
      mttkrpMapDT tree indexes V W (order + 1) key cache
    else pure cache)
  match cache.lookup key with
  | none => .error .ub
  | some M => pure (M, cache)

/-- Body of the loop over `i` in `step` (cp_dt_optimizer.cxx:207-233; cp_msdt_optimizer.cxx:184-205), with the
update of the factor, given the position, the mode and its MTTKRP, as a parameter. -/
def treeBody {σ : Type} (order : ℕ) (tree : Tree) (V : Tensor K) (indexes : List ℕ)
    (W : σ → List (Tensor K)) (upd : σ → ℕ → ℕ → Tensor K → Except Fault σ) (s : σ × Cache K) (i : ℕ) :
    Except Fault (σ × Cache K) := do
  let r ← treeM order tree V indexes (W s.1) s.2 i
  let m ← rd indexes i
  let t ← upd s.1 i m r.1
  pure (t, r.2)

/-- The loop body of the DT and MSDT optimizers: every mode is updated by the normal-equation solve. -/
def treeUpdate (order rank : ℕ) (lam : K) (solve : Spec.Solver K) (tree : Tree) (V : Tensor K)
    (indexes : List ℕ) (s : Fac K × Cache K) (i : ℕ) : Except Fault (Fac K × Cache K) :=
  treeBody order tree V indexes (fun f : Fac K => f.W)
    (fun f _ m M => updateMode order rank lam solve f m M) s i

/-- Members of `CPDTOptimizer` that persist between steps (cp_dt_optimizer.h). -/
structure DTState where
  first : Bool
  special : ℕ
  left1 : ℕ
  left2 : ℕ
  indexes1 : List ℕ
  indexes2 : List ℕ
  tree : Tree

/-- Constructor (cp_dt_optimizer.cxx:7-39). -/
def dtInit (order : ℕ) : Except Fault DTState := do
  let tree ← constructTree order
  let left := order - 1
  let left2 := (left + order - 1) % order
  pure ⟨true, 0, left, left2, List.range (order - 1), indexesOf order left2, tree⟩

/-- Positions updated by one step (loop bounds, `continue` and `break`, cp_dt_optimizer.cxx:203-208). -/
def dtPositions (n special : ℕ) (first : Bool) : List ℕ :=
  if first then (List.range n).filter (fun i => decide (¬ i < special))
  else (List.range n).takeWhile (fun i => decide (¬ i > special))

/-- `CPDTOptimizer::step` (cp_dt_optimizer.cxx:187-237); it returns 0.5 sweeps. -/
def dtStep (order rank : ℕ) (lam : K) (solve : Spec.Solver K) (V : Tensor K)
    (s : DTState × Fac K) : Except Fault (DTState × Fac K) := do
  let o := s.1
  let indexes := if o.first then o.indexes1 else o.indexes2
  let left := if o.first then o.left1 else o.left2
  let cache ← mapInit order V s.2.W left
  let r ← (dtPositions indexes.length o.special o.first).foldlM
    (treeUpdate order rank lam solve o.tree V indexes) (s.2, cache)
  pure ({ o with first := !o.first }, r.1)

/-- Members of `CPMSDTOptimizer` that persist between steps. -/
structure MSDTState where
  left : ℕ
  indexes : List ℕ
  tree : Tree

/-- Constructor (cp_msdt_optimizer.cxx:7-28). -/
def msdtInit (order : ℕ) : Except Fault MSDTState := do
  let tree ← constructTree order
  pure ⟨order, List.range (order - 1), tree⟩

/-- `CPMSDTOptimizer::step` (cp_msdt_optimizer.cxx:172-208); it returns `(order-1)/order` sweeps. -/
def msdtStep (order rank : ℕ) (lam : K) (solve : Spec.Solver K) (V : Tensor K)
    (s : MSDTState × Fac K) : Except Fault (MSDTState × Fac K) := do
  let left := (s.1.left + order - 1) % order
  let indexes := indexesOf order left
  let cache ← mapInit order V s.2.W left
  let r ← (List.range indexes.length).foldlM
    (treeUpdate order rank lam solve s.1.tree V indexes) (s.2, cache)
  pure (⟨left, indexes, s.1.tree⟩, r.1)

/-- `n` consecutive calls of a fallible step. -/
def iterM {σ : Type} (step : σ → Except Fault σ) : ℕ → σ → Except Fault σ
  | 0, s => .ok s
  | n + 1, s => do
    let s ← step s
    iterM step n s

end Model
