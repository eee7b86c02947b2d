import Verif.Proofs.FullRank
import Verif.Properties.Symmetry
import Verif.Properties.TuckLoop

/-! # C75: low-rank optimizers with full update rank are the exact optimizers -/

namespace Properties

open Model Finset

variable {N : ℕ} {dims : Fin N → ℕ} {R : ℕ} {lam : ℝ} {q : ℕ} {V : Tensor ℝ} {f : Fac ℝ} {kn : Kern ℝ}
  {X0 : ℕ → ℕ → (ℕ → ℕ → ℝ) → (ℕ → ℕ → ℝ) → (ℕ → ℕ → ℝ) → Tensor ℝ} {random : Bool}

/-- The update rank does not truncate: `q = min (dims j) R` for every mode, or, with randomised decompositions, `q = R ≤ dims j`. -/
def FullUpdateRank (dims : Fin N → ℕ) (R q : ℕ) (random : Bool) : Prop :=
  if random then q = R ∧ ∀ j, R ≤ dims j else ∀ j, q = min (dims j) R

theorem alsRun_solver {solve solve' : Spec.Solver ℝ} (hl : 0 < lam) (h : Spec.SolvesPosDef solve) (h' : Spec.SolvesPosDef solve')
    (A : (Fin N → ℕ) → ℝ) (modes : List (Fin N)) (st : Spec.AlsState N ℝ) :
    Spec.alsRun dims R lam solve A modes st = Spec.alsRun dims R lam solve' A modes st := by
  unfold Spec.alsRun
  congr 1
  funext st i
  unfold Spec.alsUpdate
  congr 2
  unfold Spec.alsFactor
  funext x r
  by_cases hx : x < dims i ∧ r < R
  · have hd : 0 < dims i := by omega
    have hp := Spec.normalMat_posDef (dims := dims) (R := R) (W := st.W) (i := i) hl hd
    rw [Spec.clip_of hx.1 hx.2, Spec.clip_of hx.1 hx.2]
    exact Spec.solves_unique hp (h _ _ _ _ hp) (h' _ _ _ _ hp) x hx.1 r hx.2
  · unfold Spec.clip
    rw [if_neg hx, if_neg hx]

/-- **C75 (DT).** `lam > 0`, kernels that meet their contracts, an update rank that does not truncate: the factors and stored
gradients after `2p` steps of the low-rank dimension-tree optimizer are those of `p` ALS sweeps, and those of `2p` steps of the DT
optimizer with any exact solver — although the low-rank optimizer splits its sweeps elsewhere and patches cached contractions. -/
theorem C75_dtlr (h3 : 3 ≤ N) (hN : N ≤ 31) (hS : Shaped dims R V f.W) (hG : f.G.length = N) (hl : 0 < lam) (hk : LRKernOk kn)
    (hq : FullUpdateRank dims R q random) (hX0 : random = true → ∀ n R M A S, (X0 n R M A S).lens = [R, q])
    {solve : Spec.Solver ℝ} (hsv : Spec.SolvesPosDef solve) (p : ℕ) :
    ∃ o0 s f' o0' s' g, dtlrInit N = .ok o0 ∧
      iterM (dtlrStep N R lam (cholSolver kn) q (lrSolver kn X0 q random) V) (2 * p) (o0, f) = .ok (s, f') ∧
      dtInit N = .ok o0' ∧ iterM (dtStep N R lam solve V) (2 * p) (o0', f) = .ok (s', g) ∧
      facs N f' = facs N g ∧ facs N f' = (Spec.alsSweep dims R lam solve (arr V N))^[p] (facs N f) := by
  have hF : FullRankLR dims R lam (cholSolver kn) q (lrSolver kn X0 q random) := lrSolver_full hk hl hq hX0
  obtain ⟨o0, s, f', h0, h1, h2⟩ := C07_dtlr_schedule h3 hN hS hG lam (cholSolver kn) q (lrSolver kn X0 q random) (2 * p)
  obtain ⟨o0', s', g, g0, g1, g2⟩ := C05_dt_steps_are_sweeps h3 hN hS hG lam solve p
  have key : facs N f' = (Spec.alsSweep dims R lam solve (arr V N))^[p] (facs N f) := by
    rw [h2, lrRun_eq hF, alsRun_solver hl hF.exact hsv]
    have hm : ∀ p, ((List.range (2 * p)).flatMap (Spec.dtlrOps N)).map Prod.fst = (List.range p).flatMap fun _ => List.finRange N := by
      intro p
      induction p with
      | zero => rfl
      | succ p ih =>
        rw [show 2 * (p + 1) = 2 * p + 1 + 1 by ring, List.range_succ, List.range_succ, List.range_succ, List.flatMap_append,
          List.flatMap_append, List.map_append, List.map_append, ih, List.flatMap_append, List.append_assoc]
        congr 1
        simp only [List.flatMap_cons, List.flatMap_nil, List.append_nil]
        rw [dtlrOps_two h3, dtlrOps_two h3, if_pos (by omega), if_neg (by omega), show (2 * p + 1) / 2 = 2 * p / 2 by omega,
          List.take_append_drop]
    rw [hm]
    clear h1 h2 g1 g2
    induction p with
    | zero => rfl
    | succ p ih =>
      rw [List.range_succ, List.flatMap_append, Spec.alsRun_append, ih, Function.iterate_succ_apply']
      simp [Spec.alsSweep]
  exact ⟨o0, s, f', o0', s', g, h0, h1, g0, g1, by rw [key, g2], key⟩

/-- **C75 (MSDT).** The same for the low-rank multi-sweep optimizer, after every single step. -/
theorem C75_msdtlr (h3 : 3 ≤ N) (hN : N ≤ 31) (hS : Shaped dims R V f.W) (hG : Shaped dims R V f.G) (hl : 0 < lam) (hk : LRKernOk kn)
    (hq : FullUpdateRank dims R q random) (hX0 : random = true → ∀ n R M A S, (X0 n R M A S).lens = [R, q])
    {solve : Spec.Solver ℝ} (hsv : Spec.SolvesPosDef solve) (k : ℕ) :
    ∃ o0 s f' o0' s' g, msdtlrInit N = .ok o0 ∧
      iterM (msdtlrStep N R lam (cholSolver kn) q (lrSolver kn X0 q random) V) k (o0, f) = .ok (s, f') ∧
      msdtInit N = .ok o0' ∧ iterM (msdtStep N R lam solve V) k (o0', f) = .ok (s', g) ∧
      facs N f' = facs N g ∧
      facs N f' = Spec.alsRun dims R lam solve (arr V N) (Spec.cyclicModes N (by omega) (k * (N - 1))) (facs N f) := by
  have hF : FullRankLR dims R lam (cholSolver kn) q (lrSolver kn X0 q random) := lrSolver_full hk hl hq hX0
  obtain ⟨o0, T, h0, hT0, t1, t2, t3⟩ := msdtlr_G h3 hN hS hG lam (cholSolver kn) q (lrSolver kn X0 q random)
  obtain ⟨o0', s', g, g0, g1, g2⟩ := C06_msdt_cyclic h3 hN hS hG.count lam solve k
  have key : ∀ k, facs N (T k).2 = Spec.alsRun dims R lam solve (arr V N) (Spec.cyclicModes N (by omega) (k * (N - 1))) (facs N f) := by
    intro k
    induction k with
    | zero => rw [hT0]; simp [Spec.cyclicModes, Spec.alsRun]
    | succ k ih =>
      obtain ⟨base, e⟩ := t3 k
      rw [e, lrRun_eq hF, msdtlrOps_modes, alsRun_solver hl hF.exact hsv, ih, ← Spec.alsRun_append]
      congr 1
      unfold Spec.cyclicModes
      rw [Nat.succ_mul, List.range_add, List.map_append, List.map_map]
      rfl
  exact ⟨o0, (T k).1, (T k).2, o0', s', g, h0, t1 k, g0, g1, by rw [key, g2], key k⟩

/-- **C75 (MSDT, `als`).** Hence `als` with the low-rank multi-sweep optimizer and full update rank returns the same value after the
same number of steps with the same log and the same factors as `als` with the MSDT optimizer and any exact solver. -/
theorem C75_msdtlr_als (hfit : OptFits .msdt dims) (hS : Shaped dims R V f.W) (hG : Shaped dims R V f.G) (hl : 0 < lam)
    (hk : LRKernOk kn) (hq : FullUpdateRank dims R q random) (hX0 : random = true → ∀ n R M A S, (X0 n R M A S).lens = [R, q])
    {solve : Spec.Solver ℝ} (hsv : Spec.SolvesPosDef solve) {a : AlsArgs} (hres : a.resprint ≠ 0) (clock : ℕ → ℝ) {fuel : ℕ}
    (hf : stepLimit N a.maxsweep .msdt < fuel) :
    ∃ o0 o0' r r', optInit ℝ N .msdtlr = .ok o0 ∧ optInit ℝ N .msdt = .ok o0' ∧
      cpdAls .msdtlr N R lam (cholSolver kn) q (lrSolver kn X0 q random) V a clock fuel (o0, f) = .ok r ∧
      cpdAls .msdt N R lam solve q (lrSolver kn X0 q random) V a clock fuel (o0', f) = .ok r' ∧
      r.ret = r'.ret ∧ r.iters = r'.iters ∧ r.sweeps = r'.sweeps ∧ r.rows = r'.rows ∧ facs N r.st.2 = facs N r'.st.2 := by
  have h3 := hfit.lo
  have hN : N ≤ 31 := by have := hfit.hi; omega
  have hfit' : OptFits .msdtlr dims := ⟨hfit.lo, hfit.hi, by intro h; cases h⟩
  obtain ⟨p0, T, p0e, hT0, t1, t2, _⟩ := msdtlr_G h3 hN hS hG lam (cholSolver kn) q (lrSolver kn X0 q random)
  obtain ⟨o2, T2, o2e, u1, u2, _⟩ := opt_trace_modes (kind := .msdt) (.inr (.inr rfl)) hfit hS hG lam solve q (lrSolver kn X0 q random)
  obtain ⟨o0, s, h0, hs, w, c, r, hw, hc, hr, H⟩ := cpdAls_hist hfit' hS hG.count lam (cholSolver kn) q (lrSolver kn X0 q random)
    hres clock 0 (fuel := fuel) hf
  obtain ⟨o0', s', h0', hs', w', c', r', hw', hc', hr', H'⟩ := cpdAls_hist hfit hS hG.count lam solve q (lrSolver kn X0 q random)
    hres clock 0 hf
  cases hs; cases hs'
  rw [o2e] at h0'; cases h0'
  have e0 : o0 = .msdtlr p0 := by
    simp only [optInit, p0e, bind, Except.bind, pure, Except.pure] at h0
    exact (Except.ok.inj h0).symm
  subst e0
  have ew : ∀ t, w t = (.msdtlr (T t).1, (T t).2) := by
    intro t
    have := iterM_map (s1 := msdtlrStep N R lam (cholSolver kn) q (lrSolver kn X0 q random) V)
      (s2 := optStep N R lam (cholSolver kn) q (lrSolver kn X0 q random) V)
      (fun g => ((.msdtlr g.1 : OptState ℝ), g.2)) (fun x => by
        obtain ⟨x1, x2⟩ := x
        simp only [optStep, bind, Except.bind, Except.map]
        cases msdtlrStep N R lam (cholSolver kn) q (lrSolver kn X0 q random) V (x1, x2) <;> rfl) t (p0, f)
    rw [t1 t] at this
    exact Except.ok.inj ((hw t).symm.trans this)
  have ew' : ∀ t, w' t = T2 t := fun t => Except.ok.inj ((hw' t).symm.trans (u1 t))
  have ef : ∀ t, facs N (w t).2 = facs N (w' t).2 := by
    intro t
    obtain ⟨a1, a2, a3, b1, b2, b3, c1, c2, c3, c4, c5, _⟩ := C75_msdtlr h3 hN hS hG hl hk hq hX0 hsv t
    rw [p0e] at c1; cases c1
    have d1 : T t = (a2, a3) := Except.ok.inj ((t1 t).symm.trans c2)
    have d2 : w' t = (.msdt b2, b3) := by
      have := iterM_map (s1 := msdtStep N R lam solve V)
        (s2 := optStep N R lam solve q (lrSolver kn X0 q random) V)
        (fun g => ((.msdt g.1 : OptState ℝ), g.2)) (fun x => by
          obtain ⟨x1, x2⟩ := x
          simp only [optStep, bind, Except.bind, Except.map]
          cases msdtStep N R lam solve V (x1, x2) <;> rfl) t (b1, f)
      rw [c4] at this
      have e2 : o2 = .msdt b1 := by
        simp only [optInit, c3, bind, Except.bind, pure, Except.pure] at o2e
        exact (Except.ok.inj o2e).symm
      rw [e2] at hw'
      exact Except.ok.inj ((hw' t).symm.trans this)
    rw [ew, d1, d2]
    exact c5
  have eW : ∀ t j, mats (w t).2.W j = mats (w' t).2.W j := fun t j => congrFun (congrArg Spec.AlsState.W (ef t)) j
  have eG : ∀ t j, mats (w t).2.G j = mats (w' t).2.G j := fun t j => congrFun (congrArg Spec.AlsState.G (ef t)) j
  have ec : c' = c := by
    funext t
    have a1 := (hc t).1
    have a2 := (hc t).2
    have b1 := (hc' t).1
    have b2 := (hc' t).2
    have sW : Shaped dims R V (w t).2.W ∧ Shaped dims R V (w t).2.G := by rw [ew]; exact t2 t
    have sW' : Shaped dims R V (w' t).2.W ∧ Shaped dims R V (w' t).2.G := by rw [ew']; exact u2 t
    rw [C16_gradnorm (dims := dims) (R := R) (fun j => sW.2.get j)] at a1
    rw [C16_gradnorm (dims := dims) (R := R) (fun j => sW'.2.get j)] at b1
    rw [C16_residual (by omega) hfit.hi sW.1] at a2
    rw [C16_residual (by omega) hfit.hi sW'.1] at b2
    have m1 : mats (N := N) (w t).2.W = mats (w' t).2.W := funext (eW t)
    have m2 : mats (N := N) (w t).2.G = mats (w' t).2.G := funext (eG t)
    rw [← m1] at b2
    simp only [← eG] at b1
    exact Prod.ext (Except.ok.inj (b1.symm.trans a1)) (Except.ok.inj (b2.symm.trans a2))
  rw [ec] at H'
  obtain ⟨e1, e2, e3, e4, e5⟩ := hist_unique H H'
  refine ⟨_, o2, r, r', h0, o2e, hr, hr', e4, e1, e2, e5, ?_⟩
  rw [H.state, H'.state, e1]
  exact ef _

/-! ### the hypotheses are met -/

/-- A 3×3×3 tensor, rank 2, update rank 2, with and without randomisation. -/
example : ∃ kn : Kern ℝ, LRKernOk kn ∧ ∀ random p, ∃ o0 s f' o0' s' g, dtlrInit 3 = .ok o0 ∧
    iterM (dtlrStep 3 2 (1 / 2) (cholSolver kn) 2 (lrSolver kn (fun _ R _ _ _ => ⟨[R, 2], fun _ => 1⟩) 2 random) exCubeV) (2 * p)
      (o0, ⟨exCubeW, exCubeW⟩) = .ok (s, f') ∧
    dtInit 3 = .ok o0' ∧ iterM (dtStep 3 2 (1 / 2) (cholSolver kn) exCubeV) (2 * p) (o0', ⟨exCubeW, exCubeW⟩) = .ok (s', g) ∧
    facs 3 f' = facs 3 g := by
  obtain ⟨kn, h⟩ := exists_lrKernOk
  refine ⟨kn, h, fun random p => ?_⟩
  obtain ⟨o0, s, f', o0', s', g, h1, h2, h3, h4, h5, _⟩ := C75_dtlr (N := 3) (dims := fun _ => 3) (R := 2) (q := 2) (lam := 1 / 2)
    (random := random) (X0 := fun _ R _ _ _ => ⟨[R, 2], fun _ => 1⟩) (by norm_num) (by norm_num)
    (f := ⟨exCubeW, exCubeW⟩) exCubeShaped exCubeShaped.count (by norm_num) h (by cases random <;> simp [FullUpdateRank])
    (fun _ _ _ _ _ _ => rfl) (C12_cholesky_solver h.base) p
  exact ⟨o0, s, f', o0', s', g, h1, h2, h3, h4, h5⟩

/-- `als` on the same tensor with the arguments `exArgs`. -/
example : ∃ kn : Kern ℝ, LRKernOk kn ∧ ∀ random (clock : ℕ → ℝ) fuel, stepLimit 3 exArgs.maxsweep .msdt < fuel →
    ∃ o0 o0' r r', optInit ℝ 3 .msdtlr = .ok o0 ∧ optInit ℝ 3 .msdt = .ok o0' ∧
      cpdAls .msdtlr 3 2 (1 / 2) (cholSolver kn) 2 (lrSolver kn (fun _ R _ _ _ => ⟨[R, 2], fun _ => 1⟩) 2 random) exCubeV exArgs clock fuel
        (o0, ⟨exCubeW, exCubeW⟩) = .ok r ∧
      cpdAls .msdt 3 2 (1 / 2) (cholSolver kn) 2 (lrSolver kn (fun _ R _ _ _ => ⟨[R, 2], fun _ => 1⟩) 2 random) exCubeV exArgs clock fuel
        (o0', ⟨exCubeW, exCubeW⟩) = .ok r' ∧ r.ret = r'.ret ∧ r.rows = r'.rows := by
  obtain ⟨kn, h⟩ := exists_lrKernOk
  refine ⟨kn, h, fun random clock fuel hf => ?_⟩
  obtain ⟨o0, o0', r, r', h1, h2, h3, h4, h5, _, _, h6, _⟩ := C75_msdtlr_als (N := 3) (dims := fun _ => 3) (R := 2) (q := 2)
    (lam := 1 / 2) (random := random) (X0 := fun _ R _ _ _ => ⟨[R, 2], fun _ => 1⟩) ⟨by norm_num, by norm_num, by simp⟩
    (f := ⟨exCubeW, exCubeW⟩) exCubeShaped exCubeShaped (by norm_num) h (by cases random <;> simp [FullUpdateRank])
    (fun _ _ _ _ _ _ => rfl) (C12_cholesky_solver h.base) (a := exArgs) (by simp [exArgs]) clock hf
  exact ⟨o0, o0', r, r', h1, h2, h3, h4, h5, h6⟩

end Properties
