import Verif.Properties.Objective
import Verif.Properties.LowRank

/-! # C11 for the low-rank optimizers -/

namespace Properties

open Model

variable {K : Type} [CommRing K] {N : ℕ}

/-- What a low-rank run leaves alone. -/
theorem lrRun_of_not_mem {dims : Fin N → ℕ} {R : ℕ} {lam : K} {solve : Spec.Solver K} {q : ℕ} {lr : Spec.LowRank K}
    {V : (Fin N → ℕ) → K} {base : Spec.AlsState N K → Fin N → ℕ → ℕ → K} (ops : List (Fin N × Bool))
    (st : Spec.AlsState N K) {j : Fin N} (hj : j ∉ ops.map Prod.fst) :
    (Spec.lrRun dims R lam solve q lr V base ops st).W j = st.W j ∧
      (Spec.lrRun dims R lam solve q lr V base ops st).G j = st.G j := by
  induction ops generalizing st with
  | nil => exact ⟨rfl, rfl⟩
  | cons a l ih =>
    simp only [List.map_cons, List.mem_cons, not_or] at hj
    obtain ⟨h1, h2⟩ := ih (if a.2 then Spec.lrUpdate dims R lam q lr V (base st a.1) st a.1
      else Spec.alsUpdate dims R lam solve V st a.1) hj.2
    have e : Spec.lrRun dims R lam solve q lr V base (a :: l) st = Spec.lrRun dims R lam solve q lr V base l
      (if a.2 then Spec.lrUpdate dims R lam q lr V (base st a.1) st a.1 else Spec.alsUpdate dims R lam solve V st a.1) := rfl
    rw [e, h1, h2]
    cases a.2 <;> simp [Spec.lrUpdate, Spec.alsUpdate, Function.update_of_ne hj.1]

/-- The gradient recorded for a mode that a low-rank run updates once. -/
theorem lrRun_grad {dims : Fin N → ℕ} {R : ℕ} {lam : K} {solve : Spec.Solver K} {q : ℕ} {lr : Spec.LowRank K}
    {V : (Fin N → ℕ) → K} {base : Spec.AlsState N K → Fin N → ℕ → ℕ → K} (l1 l2 : List (Fin N × Bool)) (i : Fin N) (b : Bool)
    (hnd : ((l1 ++ (i, b) :: l2).map Prod.fst).Nodup) (st : Spec.AlsState N K) :
    (Spec.lrRun dims R lam solve q lr V base (l1 ++ (i, b) :: l2) st).G i = Spec.alsGrad dims R lam V
      (fun j => if j ∈ l1.map Prod.fst then (Spec.lrRun dims R lam solve q lr V base (l1 ++ (i, b) :: l2) st).W j
        else st.W j) i := by
  rw [List.map_append, List.nodup_append] at hnd
  obtain ⟨_, h2, h3⟩ := hnd
  rw [List.map_cons, List.nodup_cons] at h2
  set mid := Spec.lrRun dims R lam solve q lr V base l1 st with hmid
  set nxt : Spec.AlsState N K := if b then Spec.lrUpdate dims R lam q lr V (base mid i) mid i
    else Spec.alsUpdate dims R lam solve V mid i with hnxt
  have e : Spec.lrRun dims R lam solve q lr V base (l1 ++ (i, b) :: l2) st = Spec.lrRun dims R lam solve q lr V base l2 nxt := by
    unfold Spec.lrRun; rw [List.foldl_append]; rfl
  have hG : nxt.G i = Spec.alsGrad dims R lam V mid.W i := by
    rw [hnxt]; cases b <;> simp [Spec.lrUpdate, Spec.alsUpdate]
  have hW : ∀ j, j ≠ i → nxt.W j = mid.W j := by
    intro j hj
    rw [hnxt]; cases b <;> simp [Spec.lrUpdate, Spec.alsUpdate, Function.update_of_ne hj]
  rw [e, (lrRun_of_not_mem l2 _ h2.1).2, hG]
  congr 1
  funext j
  split_ifs with hj
  · have hne : j ≠ i := h3 j hj i (by simp)
    have hn2 : j ∉ l2.map Prod.fst := fun h => h3 j hj j (by simp only [List.map_cons, List.mem_cons]; exact .inr h) rfl
    rw [(lrRun_of_not_mem l2 _ hn2).1, hW j hne]
  · exact (lrRun_of_not_mem l1 st hj).1

/-- **C11 (low-rank DT).** After `2p + 2` steps of `CPDTLROptimizer`, i.e. after every full sweep, whichever of its updates were
low-rank corrections, `grad_W[i]` is the gradient of the objective of mode `i` at the factors in force when mode `i` was updated
in that sweep. -/
theorem C11_dtlr_gradient (h3 : 3 ≤ N) (hN : N ≤ 31) {dims : Fin N → ℕ} {R : ℕ} {V : Tensor K} {f : Fac K}
    (hS : Shaped dims R V f.W) (hG : f.G.length = N) (lam : K) (solve : Spec.Solver K) (q : ℕ) (lr : Spec.LowRank K) (p : ℕ) :
    ∃ o0 s f1 s' f2, dtlrInit N = .ok o0 ∧ iterM (dtlrStep N R lam solve q lr V) (2 * p) (o0, f) = .ok (s, f1) ∧
      iterM (dtlrStep N R lam solve q lr V) 2 (s, f1) = .ok (s', f2) ∧ ∀ i : Fin N,
        IsModeGradient dims R lam (arr V N) (midFactors (mats f2.W) (mats f1.W) i) i (mats f2.G i) := by
  obtain ⟨o0, s, f1, s', f2, h0, h1, h2, low, h4⟩ := C07_dtlr_pair_is_sweep h3 hN hS hG lam solve q lr p
  refine ⟨o0, s, f1, s', f2, h0, h1, h2, fun i => ?_⟩
  have hsplit : List.finRange N = (List.finRange N).take i.1 ++ i :: (List.finRange N).drop (i.1 + 1) := by
    conv_lhs => rw [← List.take_append_drop i.1 (List.finRange N)]
    congr 1
    rw [List.drop_eq_getElem_cons (by simp)]
    simp
  have hops : (List.finRange N).map (fun j => (j, low j)) = ((List.finRange N).take i.1).map (fun j => (j, low j)) ++
      (i, low i) :: ((List.finRange N).drop (i.1 + 1)).map fun j => (j, low j) := by
    conv_lhs => rw [hsplit]
    rw [List.map_append, List.map_cons]
  have hfst : ∀ l : List (Fin N), (l.map fun j => (j, low j)).map Prod.fst = l := by
    intro l; rw [List.map_map]; exact List.map_id' l
  have hnd : ((((List.finRange N).take i.1).map (fun j => (j, low j)) ++
      (i, low i) :: ((List.finRange N).drop (i.1 + 1)).map fun j => (j, low j)).map Prod.fst).Nodup := by
    rw [← hops, hfst]; exact List.nodup_finRange N
  have hg := lrRun_grad (dims := dims) (R := R) (lam := lam) (solve := solve) (q := q) (lr := lr) (V := arr V N)
    (base := fun st => st.W) _ _ i (low i) hnd (facs N f1)
  rw [← hops, ← h4, hfst] at hg
  change mats f2.G i = _ at hg
  rw [hg]
  have hm : (fun j => if j ∈ (List.finRange N).take i.1 then (facs N f2).W j else (facs N f1).W j) =
      midFactors (mats f2.W) (mats f1.W) i := by
    funext j
    unfold midFactors
    have : j ∈ (List.finRange N).take i.1 ↔ j.1 < i.1 := by
      rw [List.mem_take_iff_getElem]
      constructor
      · rintro ⟨k, hk, rfl⟩
        simp at hk ⊢
        omega
      · intro h
        exact ⟨j.1, by simp [h], by simp⟩
    simp only [this]
  rw [hm]
  exact alsGrad_isGradient _ _ _ _ _ _

/-- **C11 (low-rank MSDT).** Step `k` of `CPMSDTLROptimizer`, `F k` being the factors before it, updates the modes
`k(N-1), ..., k(N-1)+N-2` (mod `N`); for the `p`-th of them, `i`, the stored `grad_W[i]` is the gradient of the objective of mode
`i` at the factors in force then, also when that update is the low-rank correction of an older factor. -/
theorem C11_msdtlr_gradient (h3 : 3 ≤ N) (hN : N ≤ 31) {dims : Fin N → ℕ} {R : ℕ} {V : Tensor K} {f : Fac K}
    (hS : Shaped dims R V f.W) (hG : f.G.length = N) (lam : K) (solve : Spec.Solver K) (q : ℕ) (lr : Spec.LowRank K) :
    ∃ (o0 : MSDTLRState K) (S : ℕ → MSDTLRState K) (F : ℕ → Fac K), msdtlrInit N = .ok o0 ∧ S 0 = o0 ∧ F 0 = f ∧
      (∀ k, msdtlrStep N R lam solve q lr V (S k, F k) = .ok (S (k + 1), F (k + 1))) ∧
      ∀ k, ∀ p < N - 1, ∀ i : Fin N, i.1 = (k * (N - 1) + p) % N →
        IsModeGradient dims R lam (arr V N)
          (fun j => if ∃ p' < p, j.1 = (k * (N - 1) + p') % N then mats (F (k + 1)).W j else mats (F k).W j) i
          (mats (F (k + 1)).G i) := by
  obtain ⟨o0, S, F, h0, hS0, hF0, hstep, H⟩ := C09_msdtlr_cache_coherent h3 hN hS hG lam solve q lr
  refine ⟨o0, S, F, h0, hS0, hF0, hstep, fun k p hp i hi => ?_⟩
  have h4 := (H k).2.2
  have hN0 : 0 < N := by omega
  set g : ℕ → Fin N := fun t => ⟨(k * (N - 1) + t) % N, Nat.mod_lt _ hN0⟩ with hgdef
  set w : ℕ → Bool := fun t => decide (t = N - 2 ∧ N - 1 ≤ k) with hw
  have hops0 : Spec.msdtlrOps N (by omega) k = (List.range (N - 1)).map fun t => (g t, w t) := rfl
  have hinj : ∀ a < N - 1, ∀ b < N - 1, g a = g b → a = b := by
    intro a ha b hb e
    have e' : (k * (N - 1) + a) % N = (k * (N - 1) + b) % N := congrArg Fin.val e
    have : a % N = b % N := Nat.ModEq.add_left_cancel' (k * (N - 1)) e'
    rwa [Nat.mod_eq_of_lt (by omega), Nat.mod_eq_of_lt (by omega)] at this
  have hsplit : (List.range (N - 1)).map (fun t => (g t, w t)) = (List.range p).map (fun t => (g t, w t)) ++
      (i, w p) :: (List.range' (p + 1) (N - 1 - (p + 1))).map fun t => (g t, w t) := by
    have hr : List.range (N - 1) = List.range p ++ p :: List.range' (p + 1) (N - 1 - (p + 1)) := by
      have : N - 1 = p + ((N - 1 - (p + 1)) + 1) := by omega
      conv_lhs => rw [this]
      rw [List.range_eq_range', List.range_eq_range', ← List.range'_append_1]
      congr 1
      rw [List.range'_succ]
      simp
    rw [hr, List.map_append, List.map_cons]
    congr 2
    exact Prod.ext (Fin.ext hi.symm) rfl
  have hfst : ∀ l : List ℕ, (l.map fun t => (g t, w t)).map Prod.fst = l.map g := by
    intro l; rw [List.map_map]; rfl
  have hnd : (((List.range (N - 1)).map fun t => (g t, w t)).map Prod.fst).Nodup := by
    rw [hfst, List.nodup_map_iff_inj_on List.nodup_range]
    intro a ha b hb e
    exact hinj a (List.mem_range.1 ha) b (List.mem_range.1 hb) e
  rw [hsplit] at hnd
  have hg := lrRun_grad (dims := dims) (R := R) (lam := lam) (solve := solve) (q := q) (lr := lr) (V := arr V N)
    (base := fun _ => mats (F (k + 1 - N)).W) _ _ i (w p) hnd (facs N (F k))
  rw [← hsplit, ← hops0, ← h4, hfst] at hg
  change mats (F (k + 1)).G i = _ at hg
  rw [hg]
  have hW : (fun j => if j ∈ (List.range p).map g then (facs N (F (k + 1))).W j else (facs N (F k)).W j) =
      (fun j => if ∃ p' < p, j.1 = (k * (N - 1) + p') % N then mats (F (k + 1)).W j else mats (F k).W j) := by
    funext j
    have : j ∈ (List.range p).map g ↔ ∃ p' < p, j.1 = (k * (N - 1) + p') % N := by
      simp only [List.mem_map, List.mem_range, hgdef, Fin.ext_iff, eq_comm (a := j.1)]
    simp only [this]
  rw [hW]
  exact alsGrad_isGradient _ _ _ _ _ _

/-! Non-vacuity: the order-4 problem of `exShaped`. -/

example (lr : Spec.LowRank ℤ) := C11_dtlr_gradient (by norm_num) (by norm_num) exShaped rfl 3 (fun _ _ M _ => M) 1 lr 2
example (lr : Spec.LowRank ℤ) := C11_msdtlr_gradient (by norm_num) (by norm_num) exShaped rfl 3 (fun _ _ M _ => M) 1 lr

end Properties
