import Verif.Proofs.FullRank
import Verif.Properties.Fixed
import Verif.Properties.LowRankBest
import Verif.Properties.RunMain

/-! # C72: stationary points and the low-rank optimizers -/

namespace Spec

open Finset

variable {N : ℕ} {dims : Fin N → ℕ} {R : ℕ} {V : (Fin N → ℕ) → ℝ} {W W' : Fin N → ℕ → ℕ → ℝ} {i : Fin N} {lam : ℝ}

/-- A factor that does not raise the objective over the solution of the normal equations has the same entries. -/
theorem factor_unique (hl : 0 < lam) {X Y : ℕ → ℕ → ℝ} (hX : Solves (dims i) R X (normalMat dims R lam W i) (mttkrp dims V W i))
    (hle : fullObj2 dims R lam V (Function.update W i Y) ≤ fullObj2 dims R lam V (Function.update W i X)) :
    ∀ x < dims i, ∀ r < R, Y x r = X x r := by
  have hd := update_decrease (lam := lam) (W := Function.update W i Y) (i := i) (V := V) (X := X)
    (by rw [normalMat_update, mttkrp_update]; exact hX)
  rw [Function.update_idem, Function.update_self] at hd
  have h1 : 0 ≤ ∑ idx ∈ Box dims, modelChange R (Function.update W i Y) i (fun x r => Y x r - X x r) idx ^ 2 :=
    sum_nonneg fun _ _ => sq_nonneg _
  have h2 := frob_self_nonneg (dims i) R (fun x r => Y x r - X x r)
  have h3 : lam * frob (dims i) R (fun x r => Y x r - X x r) (fun x r => Y x r - X x r) ≤ 0 := by linarith
  have hzero : frob (dims i) R (fun x r => Y x r - X x r) (fun x r => Y x r - X x r) = 0 := by nlinarith
  intro x hx r hr
  unfold frob at hzero
  have h1 := (sum_eq_zero_iff_of_nonneg (fun x _ => sum_nonneg fun r _ => mul_self_nonneg _)).1 hzero x (mem_range.2 hx)
  have h2 := (sum_eq_zero_iff_of_nonneg (fun r _ => mul_self_nonneg _)).1 h1 r (mem_range.2 hr)
  exact sub_eq_zero.1 (mul_self_eq_zero.1 h2)

/-- The low-rank correction of a base with the entries of the factor, at a stationary point, changes nothing. -/
theorem lrUpdate_fixed (hl : 0 < lam) {q : ℕ} {lr : LowRank ℝ} (h : LRDescends q lr) (hd : 0 < dims i) (hq : q ≤ dims i) (hR : q ≤ R)
    (hg : ∀ x r, alsGrad dims R lam V W i x r = 0) {A : ℕ → ℕ → ℝ} (hA : ∀ x < dims i, ∀ r < R, A x r = W i x r)
    {st : AlsState N ℝ} (h0 : FacEq dims R st.W W) :
    FacEq dims R (lrUpdate dims R lam q lr V A st i).W W ∧ ∀ x r, (lrUpdate dims R lam q lr V A st i).G i x r = 0 := by
  have hgm : ∀ x r, alsGrad dims R lam V st.W i x r = 0 := by rw [alsGrad_congr h0]; exact hg
  refine ⟨fun j x hx r hr => ?_, fun x r => ?_⟩
  · by_cases hj : j = i
    · subst hj
      have hle := lrUpdate_descends (V := V) hl h A st j hd hq hR
      have e : fullObj2 dims R lam V (Function.update st.W j A) = fullObj2 dims R lam V (Function.update st.W j (st.W j)) := by
        refine fullObj2_congr fun m y hy s hs => ?_
        by_cases hm : m = j
        · subst hm
          rw [Function.update_self, Function.update_self, hA y hy s hs, h0 m y hy s hs]
        · rw [Function.update_of_ne hm, Function.update_of_ne hm]
      rw [e] at hle
      unfold lrUpdate at hle ⊢
      simp only at hle ⊢
      rw [Function.update_self, factor_unique hl (grad_zero_iff.1 hgm) hle x hx r hr]
      exact h0 j x hx r hr
    · simp only [lrUpdate, Function.update_of_ne hj]
      exact h0 j x hx r hr
  · simp only [lrUpdate, Function.update_self]
    exact hgm x r

/-- A run of solves and low-rank corrections started at a stationary point stays there. -/
theorem lrRun_fixed (hl : 0 < lam) {solve : Solver ℝ} (hsv : SolvesPosDef solve) {q : ℕ} {lr : LowRank ℝ} (h : LRDescends q lr)
    (hd : ∀ j, 0 < dims j) (hq : ∀ j, q ≤ dims j) (hR : q ≤ R) (hg : ∀ i x r, alsGrad dims R lam V W i x r = 0)
    {base : AlsState N ℝ → Fin N → ℕ → ℕ → ℝ} (hbase : ∀ st : AlsState N ℝ, FacEq dims R st.W W → FacEq dims R (base st) W)
    (ops : List (Fin N × Bool)) (st : AlsState N ℝ) (h0 : FacEq dims R st.W W) :
    FacEq dims R (lrRun dims R lam solve q lr V base ops st).W W ∧
      ∀ i, (i ∈ ops.map Prod.fst ∨ ∀ x r, st.G i x r = 0) → ∀ x r, (lrRun dims R lam solve q lr V base ops st).G i x r = 0 := by
  induction ops generalizing st with
  | nil => exact ⟨h0, fun i hi => hi.resolve_left (by simp)⟩
  | cons op l ih =>
    obtain ⟨i, b⟩ := op
    have step : ∃ st', st' = (if b then lrUpdate dims R lam q lr V (base st i) st i else alsUpdate dims R lam solve V st i) ∧
        FacEq dims R st'.W W ∧ (∀ x r, st'.G i x r = 0) ∧ ∀ j, j ≠ i → st'.G j = st.G j := by
      refine ⟨_, rfl, ?_⟩
      cases b
      · obtain ⟨a1, a2⟩ := alsRun_fixed (V := V) hsv (fun j hj => normalMat_posDef hl hj) hg [i] st h0
        exact ⟨a1, a2 i (by simp), fun j hj => by simp [alsUpdate, Function.update_of_ne hj]⟩
      · obtain ⟨a1, a2⟩ := lrUpdate_fixed hl h (hd i) (hq i) hR (hg i) (hbase st h0 i) h0
        exact ⟨a1, a2, fun j hj => by simp [lrUpdate, Function.update_of_ne hj]⟩
    obtain ⟨st', e, a1, a2, a3⟩ := step
    have e' : lrRun dims R lam solve q lr V base ((i, b) :: l) st = lrRun dims R lam solve q lr V base l st' := by
      rw [e]; rfl
    rw [e']
    obtain ⟨b1, b2⟩ := ih st' a1
    refine ⟨b1, fun j hj => b2 j ?_⟩
    by_cases hji : j = i
    · subst hji; exact .inr a2
    · rcases hj with hj | hj
      · simp only [List.map_cons, List.mem_cons, hji, false_or] at hj
        exact .inl hj
      · rw [a3 j hji]; exact .inr hj

/-- If the best low-rank correction does not lower the objective, it changes nothing and the gradient vanishes. -/
theorem lrUpdate_stuck (hl : 0 < lam) {q : ℕ} {lr : LowRank ℝ} (h : LRBest q lr) (hq1 : 1 ≤ q) (hq : q ≤ dims i) (hR : q ≤ R)
    {st : AlsState N ℝ} (hle : fullObj2 dims R lam V st.W ≤ fullObj2 dims R lam V (lrUpdate dims R lam q lr V (st.W i) st i).W) :
    FacEq dims R (lrUpdate dims R lam q lr V (st.W i) st i).W st.W ∧ ∀ x r, alsGrad dims R lam V st.W i x r = 0 := by
  have hd : 0 < dims i := by omega
  have grad : ∀ x r, alsGrad dims R lam V st.W i x r = 0 := by
    intro x r
    by_cases hxr : x < dims i ∧ r < R
    · obtain ⟨hx, hr⟩ := hxr
      obtain ⟨c, hc⟩ := Properties.alsGrad_isGradient dims R lam V st.W i (fun y s => if y = x ∧ s = r then 1 else 0)
      have hfr : frob (dims i) R (alsGrad dims R lam V st.W i) (fun y s => if y = x ∧ s = r then 1 else 0) =
          alsGrad dims R lam V st.W i x r := by
        unfold frob
        rw [sum_eq_single_of_mem x (mem_range.2 hx) (fun y _ hy => sum_eq_zero fun s _ => by simp [hy]),
          sum_eq_single_of_mem r (mem_range.2 hr) (fun s _ hs => by simp [hs])]
        simp
      rw [hfr] at hc
      have key : ∀ t : ℝ, 0 ≤ 2 * t * alsGrad dims R lam V st.W i x r + t ^ 2 * c := by
        intro t
        have h1 := hle.trans (lrUpdate_best (V := V) hl h (st.W i) st i hd hq hR
          (fun y k => if k = 0 then t * (if y = x then 1 else 0) else 0) (fun _ s => if s = r then 1 else 0))
        have e : (fun y s => st.W i y s + ∑ k ∈ range q, (if k = 0 then t * (if y = x then (1 : ℝ) else 0) else 0) * (if s = r then 1 else 0)) =
            fun y s => st.W i y s + t * (if y = x ∧ s = r then (1 : ℝ) else 0) := by
          funext y s
          rw [sum_eq_single_of_mem 0 (mem_range.2 (by omega)) (fun k _ hk => by simp [hk])]
          by_cases hy : y = x <;> by_cases hs : s = r <;> simp [hy, hs]
        rw [e, fullObj2_eq lam _ i, fullObj2_eq lam _ i, hc t] at h1
        have e1 : ∑ j ∈ univ.erase i, frob (dims j) R
            (Function.update st.W i (fun y s => st.W i y s + t * (if y = x ∧ s = r then (1 : ℝ) else 0)) j)
            (Function.update st.W i (fun y s => st.W i y s + t * (if y = x ∧ s = r then (1 : ℝ) else 0)) j) =
            ∑ j ∈ univ.erase i, frob (dims j) R (st.W j) (st.W j) :=
          sum_congr rfl fun j hj => by rw [Function.update_of_ne (ne_of_mem_erase hj)]
        rw [e1] at h1
        linarith
      set g := alsGrad dims R lam V st.W i x r
      by_contra hg
      have hg2 : 0 < g ^ 2 := by positivity
      have k1 := key (-g / (|c| + 1))
      have hp : 0 < |c| + 1 := by positivity
      have e : 2 * (-g / (|c| + 1)) * g + (-g / (|c| + 1)) ^ 2 * c = g ^ 2 / (|c| + 1) ^ 2 * (c - 2 * (|c| + 1)) := by
        field_simp; ring
      rw [e] at k1
      have : g ^ 2 / (|c| + 1) ^ 2 * (c - 2 * (|c| + 1)) < 0 :=
        mul_neg_of_pos_of_neg (by positivity) (by linarith [le_abs_self c, abs_nonneg c])
      linarith
    · unfold alsGrad clip
      rw [if_neg hxr]
  exact ⟨(lrUpdate_fixed hl h.descends hd hq hR grad (fun _ _ _ _ => rfl) fun _ _ _ _ _ => rfl).1, grad⟩

/-- A run of solves and best corrections that does not lower the objective changes nothing, and the gradients of its modes vanish. -/
theorem lrRun_stuck (hl : 0 < lam) {solve : Solver ℝ} (hsv : SolvesPosDef solve) {q : ℕ} {lr : LowRank ℝ} (h : LRBest q lr) (hq1 : 1 ≤ q)
    (hq : ∀ j, q ≤ dims j) (hR : q ≤ R) (ops : List (Fin N × Bool)) (st : AlsState N ℝ)
    (hle : fullObj2 dims R lam V st.W ≤ fullObj2 dims R lam V (lrRun dims R lam solve q lr V (fun st => st.W) ops st).W) :
    FacEq dims R (lrRun dims R lam solve q lr V (fun st => st.W) ops st).W st.W ∧
      ∀ i ∈ ops.map Prod.fst, ∀ x r, alsGrad dims R lam V st.W i x r = 0 := by
  induction ops generalizing st with
  | nil => exact ⟨fun _ _ _ _ _ => rfl, by simp⟩
  | cons op l ih =>
    obtain ⟨i, b⟩ := op
    have hd : ∀ j, 0 < dims j := fun j => lt_of_lt_of_le hq1 (hq j)
    have m0 := lrRun_mono (V := V) hl hsv h.descends hd hq hR [(i, b)] st
    have m1 := lrRun_mono (V := V) hl hsv h.descends hd hq hR l (lrRun dims R lam solve q lr V (fun st => st.W) [(i, b)] st)
    have e' : lrRun dims R lam solve q lr V (fun st => st.W) ((i, b) :: l) st =
      lrRun dims R lam solve q lr V (fun st => st.W) l (lrRun dims R lam solve q lr V (fun st => st.W) [(i, b)] st) := rfl
    rw [e'] at hle ⊢
    have step : FacEq dims R (lrRun dims R lam solve q lr V (fun st => st.W) [(i, b)] st).W st.W ∧
        ∀ x r, alsGrad dims R lam V st.W i x r = 0 := by
      cases b
      · obtain ⟨a1, a2⟩ := alsRun_stuck (V := V) hl (alsFactor_solves (dims := dims) (R := R) (V := V) (Or.inr ⟨hl, hsv⟩)) [i] st
          (hle.trans m1)
        exact ⟨a1, a2 i (by simp)⟩
      · exact lrUpdate_stuck hl h hq1 (hq i) hR (hle.trans m1)
    obtain ⟨b1, b2⟩ := ih _ (m0.trans hle)
    refine ⟨fun j x hx r hr => (b1 j x hx r hr).trans (step.1 j x hx r hr), fun j hj => ?_⟩
    simp only [List.map_cons, List.mem_cons] at hj
    rcases hj with rfl | hj
    · exact step.2
    · rw [← alsGrad_congr step.1]
      exact b2 j hj

end Spec

namespace Properties

open Model Finset

variable {N : ℕ} {kind : OptKind} {dims : Fin N → ℕ} {R : ℕ} {V : Tensor ℝ} {f : Fac ℝ} {lam : ℝ} {kn : Kern ℝ} {q : ℕ}
  {X0 : ℕ → ℕ → (ℕ → ℕ → ℝ) → (ℕ → ℕ → ℝ) → (ℕ → ℕ → ℝ) → Tensor ℝ} {random : Bool}

/-- The states of the low-rank optimizers, as those of the wrapper. -/
theorem lr_trace (hk : kind = .dtlr ∨ kind = .msdtlr) (hfit : OptFits kind dims) (hS : Shaped dims R V f.W) (hG : Shaped dims R V f.G)
    (lam : ℝ) (solve : Spec.Solver ℝ) (q : ℕ) (lr : Spec.LowRank ℝ) :
    ∃ (o0 : OptState ℝ) (T : ℕ → OptState ℝ × Fac ℝ), optInit ℝ N kind = .ok o0 ∧
      (∀ k, iterM (optStep N R lam solve q lr V) k (o0, f) = .ok (T k)) ∧
      ∀ k, Shaped dims R V (T k).2.W ∧ Shaped dims R V (T k).2.G := by
  have h3 := hfit.lo
  have hN : N ≤ 31 := by have := hfit.hi; omega
  rcases hk with rfl | rfl
  · obtain ⟨p0, T, p0e, hT0, t1, t2, _⟩ := dtlr_G h3 hN hS hG lam solve q lr
    refine ⟨.dtlr p0, fun k => (.dtlr (T k).1, (T k).2), by simp only [optInit, p0e, bind, Except.bind, pure, Except.pure], fun k => ?_, t2⟩
    have := iterM_map (s1 := dtlrStep N R lam solve q lr V) (s2 := optStep N R lam solve q lr V)
      (fun g => ((.dtlr g.1 : OptState ℝ), g.2)) (fun x => by
        obtain ⟨x1, x2⟩ := x
        simp only [optStep, bind, Except.bind, Except.map]
        cases dtlrStep N R lam solve q lr V (x1, x2) <;> rfl) k (p0, f)
    rw [t1 k] at this
    exact this
  · obtain ⟨p0, T, p0e, hT0, t1, t2, _⟩ := msdtlr_G h3 hN hS hG lam solve q lr
    refine ⟨.msdtlr p0, fun k => (.msdtlr (T k).1, (T k).2), by simp only [optInit, p0e, bind, Except.bind, pure, Except.pure],
      fun k => ?_, t2⟩
    have := iterM_map (s1 := msdtlrStep N R lam solve q lr V) (s2 := optStep N R lam solve q lr V)
      (fun g => ((.msdtlr g.1 : OptState ℝ), g.2)) (fun x => by
        obtain ⟨x1, x2⟩ := x
        simp only [optStep, bind, Except.bind, Except.map]
        cases msdtlrStep N R lam solve q lr V (x1, x2) <;> rfl) k (p0, f)
    rw [t1 k] at this
    exact this

/-- **C72 (stationary points are kept, low-rank optimizers).** The low-rank DT and MSDT optimizers with `lam > 0`, kernels that meet their
contracts and update rank `1 ≤ q ≤ R`, `q` at most every mode length, with or without randomisation: if the gradient of the regularised
objective with respect to every factor vanishes at the starting factors, no number of steps changes an entry of a factor, from the second
step on all stored gradients are zero, and `als` with `tol > 0` and `maxsweep ≥ 2|resprint|` returns `true` after at most `2|resprint|`
steps, with the factors it was given. -/
theorem C72_stationary_kept_lr (hk : kind = .dtlr ∨ kind = .msdtlr) (hfit : OptFits kind dims) (hS : Shaped dims R V f.W)
    (hG : Shaped dims R V f.G) (hl : 0 < lam) (hkn : LRKernOk kn) (hq : 1 ≤ q) (hqd : ∀ j, q ≤ dims j) (hqR : q ≤ R)
    (hX0 : ∀ n R M A S, (X0 n R M A S).lens = [R, q]) (random : Bool)
    (hst : ∀ i, IsModeGradient dims R lam (arr V N) (mats f.W) i fun _ _ => 0) :
    ∃ (o0 : OptState ℝ) (T : ℕ → OptState ℝ × Fac ℝ), optInit ℝ N kind = .ok o0 ∧
      (∀ k, iterM (optStep N R lam (cholSolver kn) q (lrSolver kn X0 q random) V) k (o0, f) = .ok (T k)) ∧
      (∀ k j, ∀ x < dims j, ∀ r < R, mats (T k).2.W j x r = mats f.W j x r) ∧
      (∀ k, 2 ≤ k → ∀ j x r, mats (N := N) (T k).2.G j x r = 0) ∧
      ∀ {a : AlsArgs} (clock : ℕ → ℝ) {fuel : ℕ}, a.resprint ≠ 0 → 0 < a.tol → 2 * |a.resprint| ≤ a.maxsweep →
        stepLimit N a.maxsweep kind < fuel →
        ∃ r, cpdAls kind N R lam (cholSolver kn) q (lrSolver kn X0 q random) V a clock fuel (o0, f) = .ok r ∧ r.ret = true ∧
          (r.iters : ℤ) ≤ 2 * |a.resprint| ∧ ∀ j, ∀ x < dims j, ∀ y < R, mats r.st.2.W j x y = mats f.W j x y := by
  have h3 := hfit.lo
  have hN0 : 0 < N := by omega
  obtain ⟨o0, T, h0, t1, t2⟩ := lr_trace hk hfit hS hG lam (cholSolver kn) q (lrSolver kn X0 q random)
  have hT0 : (T 0).2 = f := by rw [← Except.ok.inj (t1 0)]
  have sp := opt_spec hfit hN0 hS hG.count lam (cholSolver kn) q (lrSolver kn X0 q random) h0 t1
  -- each step is a run of solves and corrections of factors of an earlier state
  have st : ∀ k, ∃ (base : Spec.AlsState N ℝ → Fin N → ℕ → ℕ → ℝ) (ops : List (Fin N × Bool)),
      facs N (T (k + 1)).2 = Spec.lrRun dims R lam (cholSolver kn) q (lrSolver kn X0 q random) (arr V N) base ops (facs N (T k).2) ∧
      ((∀ s, base s = s.W) ∨ ∃ m ≤ k, ∀ s, base s = (facs N (T m).2).W) ∧
      ops.map Prod.fst = if kind = .dtlr then (Spec.dtlrOps N k).map Prod.fst else (Spec.msdtlrOps N hN0 k).map Prod.fst := by
    intro k
    have e := sp k
    rcases hk with rfl | rfl
    · simp only [Spec.ppStep, kindNum] at e
      norm_num at e
      exact ⟨_, _, e, .inl fun _ => rfl, by simp⟩
    · simp only [Spec.ppStep, kindNum] at e
      norm_num at e
      exact ⟨_, _, e, .inr ⟨k + 1 - N, by omega, fun _ => rfl⟩, by simp⟩
  have inv : ∀ k, (∀ m ≤ k, Spec.FacEq dims R (facs N (T m).2).W (mats f.W)) := by
    intro k
    induction k with
    | zero =>
      intro m hm
      obtain rfl : m = 0 := by omega
      rw [hT0]; exact fun _ _ _ _ _ => rfl
    | succ k ih =>
      intro m hm
      rcases Nat.lt_or_ge m (k + 1) with h | h
      · exact ih m (by omega)
      · obtain rfl : m = k + 1 := by omega
        obtain ⟨base, ops, e, hb, _⟩ := st k
        rw [e]
        refine (Spec.lrRun_fixed hl (C12_cholesky_solver hkn.base) (C14_lrSolver_descends hkn hX0 random)
          (fun j => lt_of_lt_of_le hq (hqd j)) hqd hqR (fun i => stationary_iff.1 (hst i)) (fun s hs => ?_) ops _ (ih k le_rfl)).1
        rcases hb with hb | ⟨m, hm, hb⟩
        · rw [hb]; exact hs
        · rw [hb]; exact ih m hm
  have grad : ∀ k i, (i ∈ (if kind = .dtlr then (Spec.dtlrOps N k).map Prod.fst else (Spec.msdtlrOps N hN0 k).map Prod.fst) ∨
      ∀ x r, (facs N (T k).2).G i x r = 0) → ∀ x r, (facs N (T (k + 1)).2).G i x r = 0 := by
    intro k i hi
    obtain ⟨base, ops, e, hb, ho⟩ := st k
    rw [e]
    refine (Spec.lrRun_fixed hl (C12_cholesky_solver hkn.base) (C14_lrSolver_descends hkn hX0 random)
      (fun j => lt_of_lt_of_le hq (hqd j)) hqd hqR (fun i => stationary_iff.1 (hst i)) (fun s hs => ?_) ops _ (inv k k le_rfl)).2 i
      (by rwa [ho])
    rcases hb with hb | ⟨m, hm, hb⟩
    · rw [hb]; exact hs
    · rw [hb]; exact inv k m hm
  have cov : ∀ i : Fin N, (i ∈ (if kind = .dtlr then (Spec.dtlrOps N 0).map Prod.fst else (Spec.msdtlrOps N hN0 0).map Prod.fst)) ∨
      i ∈ (if kind = .dtlr then (Spec.dtlrOps N 1).map Prod.fst else (Spec.msdtlrOps N hN0 1).map Prod.fst) := by
    intro i
    rcases hk with rfl | rfl
    · rw [if_pos rfl, if_pos rfl, dtlrOps_two h3, dtlrOps_two h3]
      norm_num
      rw [← List.mem_append, List.take_append_drop]
      exact List.mem_finRange i
    · rw [if_neg (by simp), if_neg (by simp), msdtlrOps_modes, msdtlrOps_modes]
      rcases Nat.lt_or_ge i.1 (N - 1) with h | h
      · left
        refine List.mem_map.2 ⟨i.1, List.mem_range.2 h, Fin.ext ?_⟩
        simp only [zero_mul, zero_add]
        exact Nat.mod_eq_of_lt i.2
      · right
        refine List.mem_map.2 ⟨0, List.mem_range.2 (by omega), Fin.ext ?_⟩
        simp only [one_mul, add_zero]
        rw [Nat.mod_eq_of_lt (by omega)]
        omega
  have g2 : ∀ k, 2 ≤ k → ∀ i x r, (facs N (T k).2).G i x r = 0 := by
    intro k hk
    induction k, hk using Nat.le_induction with
    | base =>
      intro i
      rcases cov i with h | h
      · exact grad 1 i (.inr (grad 0 i (.inl h)))
      · exact grad 1 i (.inl h)
    | succ k _ ih => exact fun i => grad k i (.inr (ih i))
  refine ⟨o0, T, h0, t1, fun k => inv k k le_rfl, g2, ?_⟩
  intro a clock fuel hres ht hmax hf
  obtain ⟨o0', s, h0', hs, tr', c, r, htr, hc, hr, H⟩ := cpdAls_hist hfit hS hG.count lam (cholSolver kn) q (lrSolver kn X0 q random)
    hres clock 0 hf
  rw [h0] at h0'; cases h0'
  cases hs
  have etr : ∀ k, tr' k = T k := fun k => Except.ok.inj ((htr k).symm.trans (t1 k))
  obtain ⟨e1, e2⟩ := als_stops h3 hres ht hmax H (fun k hk => by
    have := (hc k).1
    rw [etr, gradnorm_zero (t2 k).2 (g2 k hk)] at this
    exact (Except.ok.inj this).symm)
  refine ⟨r, hr, e1, e2, ?_⟩
  rw [H.state, etr]
  exact inv _ _ le_rfl

/-- **C72 (only stationary points are kept, low-rank DT optimizer).** With exact decompositions (no randomisation) and `lam > 0`: if two
steps of a run that form a sweep (numbers `2p` and `2p + 1`) leave the factors unchanged, the gradient with respect to every factor vanishes
there, although some of the updates are only corrections of rank `q`. -/
theorem C72_fixed_is_stationary_dtlr (hfit : OptFits .dtlr dims) (hS : Shaped dims R V f.W)
    (hG : Shaped dims R V f.G) (hl : 0 < lam) (hkn : LRKernOk kn) (hq : 1 ≤ q) (hqd : ∀ j, q ≤ dims j) (hqR : q ≤ R)
    (X0 : ℕ → ℕ → (ℕ → ℕ → ℝ) → (ℕ → ℕ → ℝ) → (ℕ → ℕ → ℝ) → Tensor ℝ) :
    ∃ (o0 : OptState ℝ) (T : ℕ → OptState ℝ × Fac ℝ), optInit ℝ N .dtlr = .ok o0 ∧
      (∀ k, iterM (optStep N R lam (cholSolver kn) q (lrSolver kn X0 q false) V) k (o0, f) = .ok (T k)) ∧
      ∀ p, (∀ j, ∀ x < dims j, ∀ r < R, mats (T (2 * p + 2)).2.W j x r = mats (T (2 * p)).2.W j x r) →
        ∀ i, IsModeGradient dims R lam (arr V N) (mats (T (2 * p)).2.W) i fun _ _ => 0 := by
  have h3 := hfit.lo
  obtain ⟨o0, T, h0, t1, t2⟩ := lr_trace (.inl rfl) hfit hS hG lam (cholSolver kn) q (lrSolver kn X0 q false)
  have sp := opt_spec hfit (by omega) hS hG.count lam (cholSolver kn) q (lrSolver kn X0 q false) h0 t1
  refine ⟨o0, T, h0, t1, fun p hkk i => stationary_iff.2 ?_⟩
  have e1 := sp (2 * p)
  have e2 := sp (2 * p + 1)
  simp only [Spec.ppStep, kindNum] at e1 e2
  norm_num at e1 e2
  rw [e1, ← lrRun_append] at e2
  have hle : Spec.fullObj2 dims R lam (arr V N) (facs N (T (2 * p)).2).W ≤
      Spec.fullObj2 dims R lam (arr V N) (Spec.lrRun dims R lam (cholSolver kn) q (lrSolver kn X0 q false) (arr V N) (fun st => st.W)
        (Spec.dtlrOps N (2 * p) ++ Spec.dtlrOps N (2 * p + 1)) (facs N (T (2 * p)).2)).W := by
    rw [← e2]
    exact le_of_eq (Spec.fullObj2_congr fun j x hx r hr => (hkk j x hx r hr).symm)
  refine (Spec.lrRun_stuck hl (C12_cholesky_solver hkn.base) (C14_lrSolver_best hkn X0 q) hq hqd hqR _ _ hle).2 i ?_
  rw [List.map_append, dtlrOps_two h3, dtlrOps_two h3, if_pos (by omega), if_neg (by omega), show (2 * p + 1) / 2 = 2 * p / 2 by omega,
    List.take_append_drop]
  exact List.mem_finRange i

/-! Non-vacuity: the tensor of twos, `lam = 4`, update rank 1. -/

section Examples

example (hk : kind = .dtlr ∨ kind = .msdtlr) (random : Bool) : ∃ (k : Kern ℝ) (o0 : OptState ℝ) (r : AlsEnd (OptState ℝ × Fac ℝ)),
    LRKernOk k ∧ cpdAls kind 3 1 4 (cholSolver k) 1 (lrSolver k (fun _ R _ _ _ => ⟨[R, 1], fun _ => 1⟩) 1 random) exTwosV
      ⟨1 / 1000, 60, 20, 10⟩ (fun _ => 0) 100 (o0, ⟨exTwosW, exTwosW⟩) = .ok r ∧ r.ret = true := by
  obtain ⟨k, hkn⟩ := exists_lrKernOk
  obtain ⟨o0, T, _, _, _, _, h⟩ := C72_stationary_kept_lr (N := 3) hk
    ⟨by norm_num, by norm_num, fun h => by rcases hk with rfl | rfl <;> cases h⟩ (f := ⟨exTwosW, exTwosW⟩) exTwosShaped exTwosShaped
    (lam := 4) (by norm_num) hkn (le_refl 1) (fun _ => by norm_num) (le_refl 1) (X0 := fun _ R _ _ _ => ⟨[R, 1], fun _ => 1⟩)
    (fun _ _ _ _ _ => rfl) random exTwos_stationary
  obtain ⟨r, h1, h2, _⟩ := h (a := ⟨1 / 1000, 60, 20, 10⟩) (fun _ => 0) (fuel := 100) (by norm_num) (by norm_num)
    (by norm_num) (by
      rcases hk with rfl | rfl
      · simp [stepLimit]
      · simp only [stepLimit]
        refine lt_of_le_of_lt (Nat.ceil_le.2 (?_ : _ ≤ ((40 : ℕ) : ℚ))) (by norm_num)
        norm_num)
  exact ⟨k, o0, r, hkn, h1, h2⟩

/-- The hypothesis of the converse is met by the run of the previous example, and its conclusion can be used there. -/
example : ∃ (k : Kern ℝ) (o0 : OptState ℝ) (T : ℕ → OptState ℝ × Fac ℝ), LRKernOk k ∧ optInit ℝ 3 .dtlr = .ok o0 ∧
    ∀ p, ∀ i, IsModeGradient (fun _ : Fin 3 => 2) 1 4 (arr exTwosV 3) (mats (T (2 * p)).2.W) i fun _ _ => 0 := by
  obtain ⟨k, hkn⟩ := exists_lrKernOk
  have hfit : OptFits (N := 3) .dtlr fun _ => 2 := ⟨by norm_num, by norm_num, fun h => by cases h⟩
  obtain ⟨o0, T, h0, t1, t2, _⟩ := C72_stationary_kept_lr (N := 3) (.inl rfl) hfit (f := ⟨exTwosW, exTwosW⟩) exTwosShaped exTwosShaped
    (lam := 4) (by norm_num) hkn (le_refl 1) (fun _ => by norm_num) (le_refl 1) (X0 := fun _ R _ _ _ => ⟨[R, 1], fun _ => 1⟩)
    (fun _ _ _ _ _ => rfl) false exTwos_stationary
  obtain ⟨o0', T', h0', t1', t2'⟩ := C72_fixed_is_stationary_dtlr (N := 3) hfit (f := ⟨exTwosW, exTwosW⟩) exTwosShaped exTwosShaped
    (lam := 4) (by norm_num) hkn (le_refl 1) (fun _ => by norm_num) (le_refl 1) (fun _ R _ _ _ => ⟨[R, 1], fun _ => 1⟩)
  rw [h0] at h0'; cases h0'
  have e : ∀ k, T' k = T k := fun k => Except.ok.inj ((t1' k).symm.trans (t1 k))
  refine ⟨k, o0, T, hkn, h0, fun p => ?_⟩
  have := t2' p (fun j x hx r hr => by rw [e, e, t2 _ j x hx r hr, t2 _ j x hx r hr])
  rwa [e] at this

end Examples

end Properties
