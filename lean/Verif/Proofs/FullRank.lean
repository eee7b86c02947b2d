import Verif.Properties.LowRankBest
import Verif.Proofs.Fixed

/-! # Low-rank corrections of full rank -/

namespace Properties

open Model Finset Matrix

/-- With `q = min n R` (plain decomposition), or `q = R ≤ n` (randomised), the corrected matrix solves the normal equations. -/
theorem lrSolver_exact {k : Kern ℝ} (hk : LRKernOk k)
    {X0 : ℕ → ℕ → (ℕ → ℕ → ℝ) → (ℕ → ℕ → ℝ) → (ℕ → ℕ → ℝ) → Tensor ℝ} {q n R : ℕ} {random : Bool}
    (hq : if random then q = R ∧ R ≤ n else q = min n R) {M A S : ℕ → ℕ → ℝ} (hX0 : random = true → (X0 n R M A S).lens = [R, q])
    (hp : Spec.PosDef R S) :
    Spec.Solves n R (fun x r => A x r + Spec.lrProd q (lrSolver k X0 q random n R M A S) x r) S M := by
  have hqn : q ≤ n := by
    cases random
    · simp at hq; omega
    · simp at hq; omega
  have hqR : q ≤ R := by
    cases random
    · simp at hq; omega
    · simp at hq; omega
  have hqr : ∀ X : Tensor ℝ, X.lens = [R, q] → QrSpec R q (k.qr X) := fun X hX => hk.qr R q X hX hqR
  have hsvd : ∀ B : Tensor ℝ, B.lens = [n, q] → LRShape (k.svd B q) n q q ∧ usv n q q (k.svd B q) = toM n q B := by
    intro B hB
    have h := hk.trunc n q q B hB (by omega)
    exact ⟨h.shape, h.exact (by omega)⟩
  have hdec : ∀ X : Tensor ℝ, X.lens = [n, R] → ∃ u,
      (if random then randomizedSvd k (X0 n R M A S) X q 1 else Except.ok (k.svd X q)) = .ok u ∧ LRShape u n q R := by
    intro X hX
    cases random
    · exact ⟨k.svd X q, by simp, (hk.trunc n R q X hX (le_min hqn hqR)).shape⟩
    · obtain ⟨u, Q, a1, a2, _, _⟩ := randomizedSvd_ok hX (hX0 rfl) hqr hsvd 1
      exact ⟨u, by simpa using a1, a2⟩
  obtain ⟨X, u, u', h1, h2, h3, h4, h5, h6, h7⟩ := rankRUpdate_ok (X0 := X0 n R M A S) (M := ofMat n R M) (A := ofMat n R A)
    (gamma := ofMat R R S) hk.base.tri rfl rfl rfl (hk.base.chol R _ rfl (posDef_ofMat hp)) random hdec
  have hex : usv n q R u = toM n R X := by
    cases random
    · have hu : k.svd X q = u := by simpa using h3
      rw [← hu]
      simp at hq
      exact (hk.trunc n R q X h1 (by omega)).exact (by omega)
    · obtain ⟨v, Q, a1, a2, a3, a4⟩ := randomizedSvd_ok h1 (hX0 rfl) hqr hsvd 1
      simp only [if_true] at h3 hq
      rw [a1] at h3
      have : v = u := Except.ok.inj h3
      subst this
      obtain ⟨rfl, _⟩ := hq
      rw [a4, show toM q q Q * (toM q q Q)ᵀ = 1 from ?_, Matrix.mul_one]
      rw [mul_eq_one_comm]
      exact a3.2
  have hr := rankR_residual (q := q) (hk.base.chol R (ofMat R R S) rfl (posDef_ofMat hp)) h2 (usv n q R u')
  rw [h7, hex, sub_self, Matrix.zero_mul, sub_eq_zero] at hr
  intro x hx r hr'
  unfold lrSolver
  rw [h5]
  simp only
  have e := congrFun (congrFun hr ⟨x, hx⟩) ⟨r, hr'⟩
  rw [← lrProd_of, Matrix.mul_apply] at e
  rw [sum_range]
  have e2 : toM n R (ofMat n R M) ⟨x, hx⟩ ⟨r, hr'⟩ = M x r := by rw [toM_ofMat]
  rw [← e2, e]
  refine sum_congr rfl fun a _ => ?_
  rw [toM_ofMat]
  rfl

variable {N : ℕ} {dims : Fin N → ℕ} {R : ℕ} {lam : ℝ} {solve : Spec.Solver ℝ} {q : ℕ} {lr : Spec.LowRank ℝ} {V : Tensor ℝ}

/-- The regularised problem with exact solvers, where the low-rank routine solves the normal equations of every mode (its rank `q` is
not smaller than that of the corrections): `A + U s VT` solves `X S = M`. -/
structure FullRankLR (dims : Fin N → ℕ) (R : ℕ) (lam : ℝ) (solve : Spec.Solver ℝ) (q : ℕ) (lr : Spec.LowRank ℝ) : Prop where
  reg : 0 < lam
  exact : Spec.SolvesPosDef solve
  full : ∀ (i : Fin N) (M A S : ℕ → ℕ → ℝ), Spec.PosDef R S →
    Spec.Solves (dims i) R (fun x r => A x r + Spec.lrProd q (lr (dims i) R M A S) x r) S M

theorem lrUpdate_eq (h : FullRankLR dims R lam solve q lr) (W : (Fin N → ℕ) → ℝ) (A : ℕ → ℕ → ℝ) (st : Spec.AlsState N ℝ) (i : Fin N) :
    Spec.lrUpdate dims R lam q lr W A st i = Spec.alsUpdate dims R lam solve W st i := by
  unfold Spec.lrUpdate Spec.alsUpdate
  congr 2
  unfold Spec.alsFactor
  funext x r
  by_cases hx : x < dims i ∧ r < R
  · have hd : 0 < dims i := by omega
    have hp := Spec.normalMat_posDef (dims := dims) (R := R) (W := st.W) (i := i) h.reg hd
    rw [Spec.clip_of hx.1 hx.2, Spec.clip_of hx.1 hx.2]
    have h1 := h.full i (Spec.clip (dims i) R (Spec.mttkrp dims W st.W i)) (Spec.clip (dims i) R A) _ hp
    have h2 := h.exact (dims i) R (Spec.clip (dims i) R (Spec.mttkrp dims W st.W i)) _ hp
    have := Spec.solves_unique hp h1 h2 x hx.1 r hx.2
    rw [← this]
    simp only [Spec.clip_of hx.1 hx.2]
  · unfold Spec.clip
    rw [if_neg hx, if_neg hx]

theorem lrRun_eq (h : FullRankLR dims R lam solve q lr) (W : (Fin N → ℕ) → ℝ) (base : Spec.AlsState N ℝ → Fin N → ℕ → ℕ → ℝ)
    (ops : List (Fin N × Bool)) (st : Spec.AlsState N ℝ) :
    Spec.lrRun dims R lam solve q lr W base ops st = Spec.alsRun dims R lam solve W (ops.map Prod.fst) st := by
  unfold Spec.lrRun Spec.alsRun
  rw [List.foldl_map]
  congr 1
  funext st op
  rw [lrUpdate_eq h, ite_self]

/-- Kernels that meet their contracts, and an update rank that does not truncate. -/
theorem lrSolver_full {k : Kern ℝ} (hk : LRKernOk k) (hl : 0 < lam)
    {X0 : ℕ → ℕ → (ℕ → ℕ → ℝ) → (ℕ → ℕ → ℝ) → (ℕ → ℕ → ℝ) → Tensor ℝ} {random : Bool}
    (hq : if random then q = R ∧ ∀ j, R ≤ dims j else ∀ j, q = min (dims j) R)
    (hX0 : random = true → ∀ n R M A S, (X0 n R M A S).lens = [R, q]) :
    FullRankLR dims R lam (cholSolver k) q (lrSolver k X0 q random) where
  reg := hl
  exact := C12_cholesky_solver hk.base
  full := by
    intro i M A S hp
    refine lrSolver_exact hk ?_ (fun h => hX0 h _ _ _ _ _) hp
    cases random
    · simpa using hq i
    · simp only [if_true] at hq ⊢
      exact ⟨hq.1, hq.2 i⟩

theorem dtlr_G (h3 : 3 ≤ N) (hN : N ≤ 31) {f : Fac ℝ} (hS : Shaped dims R V f.W) (hG : Shaped dims R V f.G) (lam : ℝ)
    (solve : Spec.Solver ℝ) (q : ℕ) (lr : Spec.LowRank ℝ) :
    ∃ (o0 : DTLRState ℝ) (T : ℕ → DTLRState ℝ × Fac ℝ), dtlrInit N = .ok o0 ∧ T 0 = (o0, f) ∧
      (∀ k, iterM (dtlrStep N R lam solve q lr V) k (o0, f) = .ok (T k)) ∧
      (∀ k, Shaped dims R V (T k).2.W ∧ Shaped dims R V (T k).2.G) ∧
      ∀ k, facs N (T (k + 1)).2 = Spec.lrRun dims R lam solve q lr (arr V N) (fun st => st.W) (Spec.dtlrOps N k) (facs N (T k).2) := by
  obtain ⟨o0, h0, hI0⟩ := dtlrInit_ok h3 hN dims R q (arr V N) (mats f.W)
  have key : ∀ k, ∃ of : DTLRState ℝ × Fac ℝ, iterM (dtlrStep N R lam solve q lr V) k (o0, f) = .ok of ∧
      Shaped dims R V of.2.W ∧ Shaped dims R V of.2.G ∧ DTLRInv dims R q (arr V N) h3 k of.1 (mats of.2.W) := by
    intro k
    induction k with
    | zero => exact ⟨(o0, f), rfl, hS, hG, hI0⟩
    | succ k ih =>
      obtain ⟨of, a1, a2, a3, a4⟩ := ih
      obtain ⟨o', f2, b1, b2, ⟨_, b3⟩, b4, _⟩ := dtlrStep_ok h3 hN lam solve q lr a2 a3.count a4
      exact ⟨(o', f2), by rw [iterM_succ_right, a1]; exact b1, b2, b3 a3, b4⟩
  choose T t1 t2 t3 t4 using key
  refine ⟨o0, T, h0, (Except.ok.inj (t1 0)).symm, t1, fun k => ⟨t2 k, t3 k⟩, fun k => ?_⟩
  obtain ⟨o', f2, b1, _, _, _, b5⟩ := dtlrStep_ok h3 hN lam solve q lr (t2 k) (t3 k).count (t4 k)
  have := t1 (k + 1)
  rw [iterM_succ_right, t1 k] at this
  have e : T (k + 1) = (o', f2) := Except.ok.inj (this.symm.trans b1)
  rw [e]
  exact b5

theorem msdtlr_G (h3 : 3 ≤ N) (hN : N ≤ 31) {f : Fac ℝ} (hS : Shaped dims R V f.W) (hG : Shaped dims R V f.G) (lam : ℝ)
    (solve : Spec.Solver ℝ) (q : ℕ) (lr : Spec.LowRank ℝ) :
    ∃ (o0 : MSDTLRState ℝ) (T : ℕ → MSDTLRState ℝ × Fac ℝ), msdtlrInit N = .ok o0 ∧ T 0 = (o0, f) ∧
      (∀ k, iterM (msdtlrStep N R lam solve q lr V) k (o0, f) = .ok (T k)) ∧
      (∀ k, Shaped dims R V (T k).2.W ∧ Shaped dims R V (T k).2.G) ∧
      ∀ k, ∃ base, facs N (T (k + 1)).2 = Spec.lrRun dims R lam solve q lr (arr V N) base
        (Spec.msdtlrOps N (by omega) k) (facs N (T k).2) := by
  obtain ⟨o0, S, F, h0, h⟩ := msdtlr_reach h3 hN hS hG.count lam solve q lr
  have step : ∀ k, ∃ o' f2, msdtlrStep N R lam solve q lr V (S k, F k) = .ok (o', f2) ∧ (o', f2) = (S (k + 1), F (k + 1)) ∧
      (Shaped dims R V (F k).G → Shaped dims R V f2.G) ∧ facs N f2 = Spec.lrRun dims R lam solve q lr (arr V N)
        (fun _ => mats (F (k + 1 - N)).W) (Spec.msdtlrOps N (by omega) k) (facs N (F k)) := by
    intro k
    obtain ⟨a1, a2, a3, a4⟩ := h k
    obtain ⟨o', f2, b1, b2, ⟨_, b3⟩, b4, b5⟩ := msdtlrStep_ok h3 hN lam solve q lr a2 a3 rfl a4
    have := (h (k + 1)).1
    rw [iterM_succ_right, a1] at this
    exact ⟨o', f2, b1, (Except.ok.inj (this.symm.trans b1)).symm, b3, b5⟩
  have hF0 : (S 0, F 0) = (o0, f) := (Except.ok.inj (h 0).1).symm
  have hGk : ∀ k, Shaped dims R V (F k).G := by
    intro k
    induction k with
    | zero => rw [show F 0 = f from congrArg Prod.snd hF0]; exact hG
    | succ k ih =>
      obtain ⟨o', f2, _, e, b3, _⟩ := step k
      rw [← show f2 = F (k + 1) from congrArg Prod.snd e]
      exact b3 ih
  refine ⟨o0, fun k => (S k, F k), h0, hF0, fun k => (h k).1, fun k => ⟨(h k).2.1, hGk k⟩, fun k => ?_⟩
  obtain ⟨o', f2, _, e, _, b⟩ := step k
  refine ⟨fun _ => mats (F (k + 1 - N)).W, ?_⟩
  rw [show f2 = F (k + 1) from congrArg Prod.snd e] at b
  exact b

/-- The modes of a step of the low-rank optimizers. -/
theorem dtlrOps_two (h3 : 3 ≤ N) (k : ℕ) : (Spec.dtlrOps N k).map Prod.fst = if k % 2 = 0 then
    (List.finRange N).take (N - 1 - (k / 2 / 5) % (N - 1)) else (List.finRange N).drop (N - 1 - (k / 2 / 5) % (N - 1)) := by
  unfold Spec.dtlrOps
  simp only
  split_ifs <;> simp [Function.comp_def]

theorem msdtlrOps_modes (h : 0 < N) (k : ℕ) : (Spec.msdtlrOps N h k).map Prod.fst =
    (List.range (N - 1)).map fun t => ⟨(k * (N - 1) + t) % N, Nat.mod_lt _ h⟩ := by
  unfold Spec.msdtlrOps
  simp [Function.comp_def]

end Properties
