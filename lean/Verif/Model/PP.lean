import Verif.Model.Legacy
import Verif.Model.Solve

/-! # Pairwise perturbation for CP (als_CP.cxx:323-409, 621-833, 852-1073) -/

namespace Model

variable {K : Type}

/-- `seq_complete` (als_CP.cxx:325-329). -/
def allLetters (N : ℕ) : Key := (List.range N).map letter

/-- The copy loop of `stringbuilder_mttkrp` (als_CP.cxx:339-346): `seq_complete` is copied except for the characters matched
by the pointer `jj` into `seq`. -/
def copyUnmatched : Key → Key → Key
  | [], _ => []
  | c :: cs, [] => c :: copyUnmatched cs []
  | c :: cs, s :: ss => if c = s then copyUnmatched cs ss else c :: copyUnmatched cs (s :: ss)

/-- `stringbuilder_mttkrp` on a `seq` different from the literal `"0"` (als_CP.cxx:334-349).  The buffer `seq_contract` has
`N + 2 - strlen(seq)` bytes, with `'*'` stored at position `N - strlen(seq)` and NUL behind it before the loop: one more
unmatched letter than expected overwrites the `'*'`, two more overwrite the terminating NUL. -/
def stringbuilder (N : ℕ) (seq : Key) : Except Fault Key :=
  let l := copyUnmatched (allLetters N) seq
  if l.length + seq.length = N then .ok (l ++ [star])
  else if l.length + seq.length = N + 1 then .ok l
  else .error .ub

/-- `stringbuilder_mttkrp("0", ...)` (als_CP.cxx:330-333, 366).  Whether the pointer comparison `seq == "0"` of two string
literals succeeds is unspecified: parameter `same`. -/
def stringbuilder0 (same : Bool) (N : ℕ) : Except Fault Key :=
  if same then .ok (allLetters N) else stringbuilder N [48]

/-- The recursion common to `Build_mttkrp_map` (als_CP.cxx:352-409) and `Build_ttmc_map` (als_Tucker.cxx:426-466).  A key of
length one is computed from the input tensor, a longer one from the entry of the key without its last character, which is
built first if it is missing.  `char seq2[sizeof(seq)]` has 8 bytes (size of a pointer): a key of more than 8 characters
overflows it; for the empty key `strncpy(seq2, seq, strlen(seq) - 1)` overflows it as well. -/
def buildNode {τ : Type} (fromRoot : Key → Except Fault τ) (fromParent : Key → τ → Except Fault τ) (seq : Key)
    (cache : List (Key × τ)) : Except Fault (List (Key × τ)) :=
  if seq.length = 1 then do
    let T ← fromRoot seq
    pure ((seq, T) :: cache)
  else if h : seq.length = 0 ∨ 8 < seq.length then .error .ub
  else do
    let cache ← (if (cache.lookup seq.dropLast).isNone then buildNode fromRoot fromParent seq.dropLast cache
      else pure cache)
    match cache.lookup seq.dropLast with
    | none => .error .ub
    | some Tp => do
      let T ← fromParent seq Tp
      pure ((seq, T) :: cache)
termination_by seq.length
decreasing_by simp; omega

/-- The string of all modes except `i` and `j`, `i < j` (als_CP.cxx:676-680). -/
def exceptTwo {α : Type} (s : List α) (i j : ℕ) : List α :=
  s.take i ++ (s.drop (i + 1)).take (j - i - 1) ++ (s.drop (j + 1)).take (s.length - j - 1)

/-- The string of all modes except `i` (als_CP.cxx:685-688). -/
def exceptOne {α : Type} (s : List α) (i : ℕ) : List α := s.take i ++ (s.drop (i + 1)).take (s.length - i - 1)

/-- The keys built by `alsCP_PP_sub`, in order (als_CP.cxx:673-690): all pairs, then all single modes. -/
def ppKeys (N : ℕ) : List Key :=
  ((List.range N).flatMap fun i => (List.range' (i + 1) (N - (i + 1))).map fun j => exceptTwo (allLetters N) i j) ++
    (List.range N).map fun i => exceptOne (allLetters N) i

variable [CommRing K]

/-- Level 1 of `Build_mttkrp_map` (als_CP.cxx:360-382). -/
def ppFromRoot (same : Bool) (N : ℕ) (V : Tensor K) (W : List (Tensor K)) (seq : Key) : Except Fault (Tensor K) := do
  let s1 ← stringbuilder N seq
  let s2 ← stringbuilder0 same N
  let c ← rd seq 0
  let lens ← lensInit V W s1
  let Wc ← rd W (decode c)
  einsum lens s1 [(V, s2), (Wc, [c, star])]

/-- Other levels of `Build_mttkrp_map` (als_CP.cxx:386-408). -/
def ppFromParent (N : ℕ) (V : Tensor K) (W : List (Tensor K)) (seq : Key) (Tp : Tensor K) :
    Except Fault (Tensor K) := do
  let s1 ← stringbuilder N seq
  let s2 ← stringbuilder N seq.dropLast
  let c ← rd seq ((seq.length : ℤ) - 1)
  let lens ← lensInit V W s1
  let Wc ← rd W (decode c)
  einsum lens s1 [(Tp, s2), (Wc, [c, star])]

/-- `Build_mttkrp_map` (als_CP.cxx:352-409). -/
def buildMttkrpMap (same : Bool) (N : ℕ) (V : Tensor K) (W : List (Tensor K)) (seq : Key) (cache : Cache K) :
    Except Fault (Cache K) :=
  buildNode (ppFromRoot same N V W) (ppFromParent N V W) seq cache

/-- Construction of the PP operators at the start of a PP phase (als_CP.cxx:671-690). -/
def ppOperators (same : Bool) (N : ℕ) (V : Tensor K) (W : List (Tensor K)) : Except Fault (Cache K) :=
  (ppKeys N).foldlM (fun cache seq => buildMttkrpMap same N V W seq cache) []

/-- `M += A * B` for an index expression (als_CP.cxx:768, 776). -/
def accum (M : Tensor K) (sc : Key) (ops : List (Tensor K × Key)) : Except Fault (Tensor K) := do
  let T ← einsum M.lens sc ops
  zipT (· + ·) M T

/-- The contribution of the displacement `dW[j]` to `M` of mode `i` (als_CP.cxx:761-777), `ops` the PP operators.  A key
missing in the map would create an empty tensor, whose use is treated as `ub`. -/
def ppContrib (N : ℕ) (ops : Cache K) (dW : List (Tensor K)) (i : ℕ) (M : Tensor K) (j : ℕ) :
    Except Fault (Tensor K) := do
  let dWj ← rd dW j
  if j < i then
    match ops.lookup (exceptTwo (allLetters N) j i) with
    | none => .error .ub
    | some T => accum M [lj, lk] [(T, [li, lj, lk]), (dWj, [li, lk])]
  else
    match ops.lookup (exceptTwo (allLetters N) i j) with
    | none => .error .ub
    | some T => accum M [li, lk] [(T, [li, lj, lk]), (dWj, [lj, lk])]

/-- The matrix `M` of mode `i` in `alsCP_PP_sub` (als_CP.cxx:752-777). -/
def ppM (N : ℕ) (ops : Cache K) (dW : List (Tensor K)) (i : ℕ) : Except Fault (Tensor K) := do
  match ops.lookup (exceptOne (allLetters N) i) with
  | none => .error .ub
  | some M0 => (List.range i ++ List.range' (i + 1) (N - (i + 1))).foldlM (ppContrib N ops dW i) M0

/-- What a PP phase works on. -/
structure PPState (K : Type) where
  W : List (Tensor K)
  G : List (Tensor K)
  dW : List (Tensor K)

/-- Update of mode `i` in `alsCP_PP_sub` (als_CP.cxx:736-804). `if (lambda != 0) S += regul` is modelled by adding `regul`
always (it is zero if `lambda` is). -/
def ppUpdate {F : Type} [Field F] [DecidableEq F] (N rank : ℕ) (lam ratio : F) (k : Kern F) (ops : Cache F)
    (Winit : List (Tensor F)) (s : PPState F) (i : ℕ) : Except Fault (PPState F) := do
  let M ← ppM N ops s.dW i
  let S ← gramS (swapIdx N i) rank lam s.W
  let Wi ← rd s.W i
  let WS ← einsum M.lens [li, lj] [(Wi, [li, lk]), (S, [lk, lj])]
  let g ← zipT (fun a b => -a + b) M WS
  let Wi0 ← rd Winit i
  let r ← svdSolveMod k M Wi0 S ratio
  pure ⟨s.W.set i r.1, s.G.set i g, s.dW.set i r.2⟩

/-- The updates of one PP sweep (als_CP.cxx:736-813). -/
def ppUpdates {F : Type} [Field F] [DecidableEq F] (N rank : ℕ) (lam ratio : F) (k : Kern F) (ops : Cache F)
    (Winit : List (Tensor F)) (s : PPState F) : Except Fault (PPState F) :=
  (List.range N).foldlM (ppUpdate N rank lam ratio k ops Winit) s

/-- One PP sweep: the updates and `Normalize(W)` (als_CP.cxx:736-815; `Fnorm` is never changed from 0). -/
noncomputable def ppSweep (N rank : ℕ) (lam ratio : ℝ) (k : Kern ℝ) (ops : Cache ℝ) (Winit : List (Tensor ℝ))
    (s : PPState ℝ) : Except Fault (PPState ℝ) := do
  let s ← ppUpdates N rank lam ratio k ops Winit s
  let W ← normalize s.W N
  pure { s with W := W }

end Model
