import Verif.Proofs.PPDriverCP

/-! # C30, C31: the driver `alsCP_PP` -/

namespace Properties

open Model Finset

variable {N : ℕ} {dims : Fin N → ℕ} {R : ℕ} {V : Tensor ℝ} {W G : List (Tensor ℝ)} {kn : Kern ℝ}

/-- The number of PP sweeps in a piece of the history. -/
def ppSweeps (l : List PPEv) : ℕ := l.countP fun e => match e with
  | .ppSweep => true
  | _ => false

/-- A piece of the history in which no PP phase starts. -/
def NoStart (l : List PPEv) : Prop := ∀ e ∈ l, e ≠ .ppStart

theorem capped_spec {tr : List PPEv} (h : Capped tr) (l : List PPEv) (hl : l <:+: tr) (hs : NoStart l) : ppSweeps l ≤ 15 := by
  have := h l hl (fun e he => by
    have := hs e he
    cases e <;> first | rfl | exact absurd rfl this)
  refine le_trans (le_of_eq ?_) this
  unfold ppSweeps
  congr 1

theorem cp_start (hW : Shaped dims R V W) (hG : G.length = N) : CPI dims R V ⟨W, G, W.map zerosLike, [], [], []⟩ :=
  ⟨hW, hG, zeros_shape hW⟩

theorem capped_nil : Capped [] := by
  intro l hl _
  rw [List.infix_nil.1 hl]
  simp

/-- **C30.** Orders 4, 6, 7, 8, 9, dense kernels satisfying their contract, `resprint` nonzero, and a clock that never
passes the limit: `alsCP_PP` terminates (`maxiter + 4` passes of each of its loops suffice).  When it does, the last
measured gradient norm is at most `tol` or `maxiter` is exceeded; `iter` is at most `maxiter + 1` (`maxiter + 2` in
`bench` mode); between two constructions of the operators at most 15 PP sweeps were made; and outside `bench` mode the
value `true` is only returned if the gradient norm is at most `tol`. -/
theorem C30_terminates (h4 : 4 ≤ N) (h5 : N ≠ 5) (h9 : N ≤ 9) (same : Bool) (lam ratio tolInit : ℝ) (hk : KernOk kn)
    (hW : Shaped dims R V W) (hG : G.length = N) (c : PPCfg) (hm : 0 ≤ c.maxiter) (hr : c.resprint ≠ 0) (clock : ℕ → ℝ)
    (hclk : ∀ t, clock t ≤ c.timelimit) (fuel : ℕ) (hf : c.maxiter + 3 < fuel) :
    ∃ r ret, alsCPPP same N R lam ratio tolInit kn V c clock fuel W G = .ok (r, ret) ∧
      (r.grad ≤ c.tol ∨ c.maxiter < r.iter) ∧
      (r.iter : ℤ) ≤ c.maxiter + 1 + (if c.bench = true then 1 else 0) ∧
      (∀ l, l <:+: r.trace → NoStart l → ppSweeps l ≤ 15) ∧
      (ret = true ↔ (r.iter : ℤ) ≠ c.maxiter + 1) ∧
      (c.bench = false → ret = true → r.grad ≤ c.tol) := by
  have hkk := cp_hooks (dims := dims) (R := R) (V := V) h4 h5 h9 same lam ratio tolInit hk
  obtain ⟨r, r1, r2⟩ := ppDriverLoop_ok (c := { c with tucker := false }) hkk hr
    (fun s hs hc => cp_close hs hc) rfl (by rintro ⟨t, ht⟩; exact absurd ht (not_lt.2 (hclk t))) (clock := clock)
    (sub := fuel) fuel ⟨0, 10, 0, ⟨W, G, W.map zerosLike, [], [], []⟩, []⟩ (cp_start hW hG)
    (by simp only; split <;> omega) capped_nil (fun _ _ h => by simp only at h; omega) (by simp only; omega)
    (by simp only; omega)
  have hstop : r.grad ≤ c.tol ∨ c.maxiter < r.iter := by
    have := r2.stop
    simp only [not_and, not_le] at this
    by_cases hg : c.tol < r.grad
    · exact .inr (this hg)
    · exact .inl (not_lt.1 hg)
  refine ⟨r, _, ?_, hstop, r2.bound, fun l hl hs => capped_spec (r2.capped rfl) l hl hs, decide_eq_true_iff, ?_⟩
  · unfold alsCPPP ppDriver
    rw [r1]
    rfl
  · intro hb ht
    rw [decide_eq_true_iff] at ht
    have := r2.bound
    simp only [hb, Bool.false_eq_true, if_false] at this
    rcases hstop with h1 | h1
    · exact h1
    · omega

/-- **C30 (any clock).** Whether or not the limit passes: if `alsCP_PP` returns, it has stopped for one of the two
reasons, `iter` is bounded and no set of operators was used for more than 15 sweeps. -/
theorem C30_exit (h4 : 4 ≤ N) (h5 : N ≠ 5) (h9 : N ≤ 9) (same : Bool) (lam ratio tolInit : ℝ) (hk : KernOk kn)
    (hW : Shaped dims R V W) (hG : G.length = N) (c : PPCfg) (hm : 0 ≤ c.maxiter) (hr : c.resprint ≠ 0) (clock : ℕ → ℝ)
    (fuel : ℕ) (hf : c.maxiter + 3 < fuel) (r : PPRun CPPPState) (ret : Bool)
    (he : alsCPPP same N R lam ratio tolInit kn V c clock fuel W G = .ok (r, ret)) :
    (r.grad ≤ c.tol ∨ c.maxiter < r.iter) ∧
      (r.iter : ℤ) ≤ c.maxiter + 1 + (if c.bench = true then 1 else 0) ∧
      (∀ l, l <:+: r.trace → NoStart l → ppSweeps l ≤ 15) ∧ Shaped dims R V r.st.W := by
  have hkk := cp_hooks (dims := dims) (R := R) (V := V) h4 h5 h9 same lam ratio tolInit hk
  unfold alsCPPP ppDriver at he
  cases hl : ppDriverLoop { c with tucker := false } (cpPPHooks same N R lam ratio tolInit kn V) clock fuel fuel
    ⟨0, 10, 0, ⟨W, G, W.map zerosLike, [], [], []⟩, []⟩ with
  | error e => rw [hl] at he; cases he
  | ok r0 =>
    rw [hl] at he
    simp only [bind, Except.bind, pure, Except.pure, Except.ok.injEq, Prod.mk.injEq] at he
    obtain ⟨rfl, -⟩ := he
    have r2 := ppDriverLoop_exit (c := { c with tucker := false }) hkk hr (fun s hs hc => cp_close hs hc) fuel _ r0
      (cp_start hW hG) (by simp only; split <;> omega) (fun _ => capped_nil) (fun _ _ h => by simp only at h; omega)
      (by simp only; omega) hl
    refine ⟨?_, r2.bound, fun l hl hs => capped_spec (r2.capped rfl) l hl hs, r2.inv.W⟩
    have := r2.stop
    simp only [not_and, not_le] at this
    by_cases hg : c.tol < r0.grad
    · exact .inr (this hg)
    · exact .inl (not_lt.1 hg)

/-- **C30 (bench mode).** In `bench` mode the extra `iter++` inverts the meaning of the result: a run that exhausts
`maxiter` without meeting the gradient test returns `true`. -/
theorem C30_bench (h4 : 4 ≤ N) (h5 : N ≠ 5) (h9 : N ≤ 9) (same : Bool) (lam ratio tolInit : ℝ) (hk : KernOk kn)
    (hW : Shaped dims R V W) (hG : G.length = N) (c : PPCfg) (hb : c.bench = true) (hm : 0 ≤ c.maxiter)
    (hr : c.resprint ≠ 0) (clock : ℕ → ℝ) (hclk : ∀ t, clock t ≤ c.timelimit) (fuel : ℕ) (hf : c.maxiter + 3 < fuel) :
    ∃ r ret, alsCPPP same N R lam ratio tolInit kn V c clock fuel W G = .ok (r, ret) ∧
      (c.tol < r.grad → ret = true ∧ (r.iter : ℤ) = c.maxiter + 2) ∧ (ret = false → r.grad < c.tol) := by
  have hkk := cp_hooks (dims := dims) (R := R) (V := V) h4 h5 h9 same lam ratio tolInit hk
  have hto : ¬ TimedOut { c with tucker := false } clock := by
    rintro ⟨t, ht⟩; exact absurd ht (not_lt.2 (hclk t))
  obtain ⟨r, r1, r2⟩ := ppDriverLoop_ok (c := { c with tucker := false }) hkk hr
    (fun s hs hc => cp_close hs hc) rfl hto (clock := clock)
    (sub := fuel) fuel ⟨0, 10, 0, ⟨W, G, W.map zerosLike, [], [], []⟩, []⟩ (cp_start hW hG)
    (by simp only; split <;> omega) capped_nil (fun _ _ h => by simp only at h; omega) (by simp only; omega)
    (by simp only; omega)
  have hbe : (r.iter : ℤ) = c.maxiter + 1 → r.grad < c.tol := fun h => (r2.bench hb rfl h).resolve_right hto
  have hbd := r2.bound
  simp only [hb, if_true] at hbd
  refine ⟨r, _, by unfold alsCPPP ppDriver; rw [r1]; rfl, fun hg => ?_, fun h => ?_⟩
  · have h1 := r2.stop
    simp only [not_and, not_le] at h1
    have h2 := h1 hg
    have h3 : ¬ (r.iter : ℤ) = c.maxiter + 1 := fun h => absurd (hbe h) (not_lt.2 hg.le)
    exact ⟨decide_eq_true h3, by omega⟩
  · simp only [decide_eq_false_iff_not, not_not] at h
    exact hbe h

/-- **C31 (violation).** Outside `bench` mode, with the limit already passed at the first test (for instance
`timelimit = 0`) and a gradient norm above `tol < 10`, `alsCP_PP` never returns, whatever the number of passes granted to
its loops. -/
theorem C31_livelock (h4 : 4 ≤ N) (h9 : N ≤ 9) (same : Bool) (lam ratio tolInit : ℝ)
    (hW : Shaped dims R V W) (hG : G.length = N) (c : PPCfg) (hb : c.bench = false) (hm : 0 ≤ c.maxiter)
    (hr : c.resprint ≠ 0) (ht : c.tol < 10) (g : ℝ) (hg : gradnorm G N = .ok g) (hgt : c.tol < g) (clock : ℕ → ℝ)
    (hclk : ∀ t, c.timelimit < clock t) (fuel : ℕ) :
    alsCPPP same N R lam ratio tolInit kn V c clock fuel W G = .error .diverge := by
  unfold alsCPPP ppDriver
  rw [ppDriverLoop_livelock (c := { c with tucker := false }) (k0 := 0) (i := 0)
    (J := fun s => CPI dims R V s ∧ s.G = G) hr hb (fun s h => ⟨{ s with Wprev := s.W.map zerosLike }, rfl, ⟨h.1.W, h.1.G, h.1.dW⟩, h.2⟩) ?_ ?_ ?_
    (fun s h => h) (fun t _ => hclk t) ?_ hm fuel fuel _ ⟨cp_start hW hG, rfl⟩ rfl (Nat.zero_le _) ht]
  · rfl
  · intro s h
    obtain ⟨g', d, e1, e2⟩ := cp_check (by omega) (by omega) h.1 (same := same) (lam := lam) (ratio := ratio)
      (tolInit := tolInit) (k := kn)
    rw [h.2, hg] at e1
    cases e1
    exact ⟨_, e2, h, hgt⟩
  · intro s h
    have hb := ratioTests_ok h.1.W h.1.dW fun a b => quotGt a b tolInit
    generalize List.map _ _ = l at hb
    refine ⟨l.any id, ?_, trivial⟩
    simp only [cpPPHooks, hb, bind, Except.bind]
    rfl
  · intro s h
    obtain ⟨ops, o1, o2⟩ := ppOperators_ok (by omega) h9 same h.1.W
    refine ⟨{ s with Winit := s.W, dW := s.dW.map zerosLike, ops := ops }, ?_, ⟨h.1.W, h.1.G, zeros_shape h.1.dW⟩, h.2⟩
    simp only [cpPPHooks, o1, bind, Except.bind]
    rfl
  · unfold dtChecked
    simp

/-- **C31 (violation, at any later point).** The same from any state of the driver between two rounds: if the limit has
passed from now on, the iteration is one with a test and the gradient norm is above `tol`, the loop never ends. -/
theorem C31_livelock_later (h4 : 4 ≤ N) (h9 : N ≤ 9) (same : Bool) (lam ratio tolInit : ℝ) (c : PPCfg)
    (hb : c.bench = false) (hr : c.resprint ≠ 0) (r : PPRun CPPPState) (hs : CPI dims R V r.st)
    (hgr : c.tol < r.grad) (g : ℝ) (hg : gradnorm r.st.G N = .ok g) (hgt : c.tol < g) (hi : (r.iter : ℤ) ≤ c.maxiter)
    (hchk : Int.tmod (r.iter : ℤ) c.resprint = 0 ∨ (r.iter : ℤ) = c.maxiter) (clock : ℕ → ℝ)
    (hclk : ∀ t, r.tests ≤ t → c.timelimit < clock t) (sub fuel : ℕ) :
    ppDriverLoop { c with tucker := false } (cpPPHooks same N R lam ratio tolInit kn V) clock sub fuel r =
      .error .diverge := by
  refine ppDriverLoop_livelock (c := { c with tucker := false }) (k0 := r.tests) (i := r.iter)
    (J := fun s => CPI dims R V s ∧ s.G = r.st.G) hr hb (fun s h => ⟨{ s with Wprev := s.W.map zerosLike }, rfl, ⟨h.1.W, h.1.G, h.1.dW⟩, h.2⟩) ?_ ?_ ?_
    (fun s h => h) hclk ?_ hi sub fuel _ ⟨hs, rfl⟩ rfl le_rfl hgr
  · intro s h
    obtain ⟨g', d, e1, e2⟩ := cp_check (by omega) (by omega) h.1 (same := same) (lam := lam) (ratio := ratio)
      (tolInit := tolInit) (k := kn)
    rw [h.2, hg] at e1
    cases e1
    exact ⟨_, e2, h, hgt⟩
  · intro s h
    have hb := ratioTests_ok h.1.W h.1.dW fun a b => quotGt a b tolInit
    generalize List.map _ _ = l at hb
    refine ⟨l.any id, ?_, trivial⟩
    simp only [cpPPHooks, hb, bind, Except.bind]
    rfl
  · intro s h
    obtain ⟨ops, o1, o2⟩ := ppOperators_ok (by omega) h9 same h.1.W
    refine ⟨{ s with Winit := s.W, dW := s.dW.map zerosLike, ops := ops }, ?_, ⟨h.1.W, h.1.G, zeros_shape h.1.dW⟩, h.2⟩
    simp only [cpPPHooks, o1, bind, Except.bind]
    rfl
  · unfold dtChecked
    simpa using hchk

/-! Non-vacuity: the order-4 problem `exVR`, `exFacR`. -/

/-- Gradients of a run: all entries 1. -/
noncomputable def exGR : List (Tensor ℝ) :=
  [⟨[2, 2], fun _ => 1⟩, ⟨[3, 2], fun _ => 1⟩, ⟨[1, 2], fun _ => 1⟩, ⟨[4, 2], fun _ => 1⟩]

example : ∃ r ret kn, alsCPPP true 4 2 (1 / 2) 1 (1 / 10) kn exVR ⟨false, 1 / 1000, 60, 100, 10, false⟩ (fun _ => 1) 104
    exFacR.W exGR = .ok (r, ret) := by
  obtain ⟨kn, hk⟩ := exists_kernOk
  obtain ⟨r, ret, h, _⟩ := C30_terminates (N := 4) (by norm_num) (by norm_num) (by norm_num) true (1 / 2) 1 (1 / 10) hk
    exShapedR (G := exGR) rfl ⟨false, 1 / 1000, 60, 100, 10, false⟩ (by norm_num) (by norm_num) (fun _ => 1)
    (fun _ => by norm_num) 104 (by norm_num)
  exact ⟨r, ret, kn, h⟩

example (kn : Kern ℝ) (fuel : ℕ) : alsCPPP true 4 2 (1 / 2) 1 (1 / 10) kn exVR ⟨false, 1 / 1000, 0, 100, 10, false⟩
    (fun _ => 1) fuel exFacR.W exGR = .error .diverge := by
  have hg := C16_gradnorm (N := 4) (dims := ![2, 3, 1, 4]) (R := 2) (G := exGR) (by
    intro j; fin_cases j <;> exact ⟨_, rfl, rfl⟩)
  refine C31_livelock (N := 4) (by norm_num) (by norm_num) true _ _ _ exShapedR rfl _ rfl (by norm_num) (by norm_num)
    (by norm_num) _ hg ?_ _ (fun _ => by norm_num) fuel
  refine lt_of_lt_of_le (b := 1) (by norm_num) ?_
  rw [Real.one_le_sqrt]
  have h0 : ∀ j : Fin 4, 0 ≤ ∑ x ∈ range ((![2, 3, 1, 4] : Fin 4 → ℕ) j), ∑ r ∈ range 2, mats (N := 4) exGR j x r ^ 2 :=
    fun j => sum_nonneg fun _ _ => sum_nonneg fun _ _ => sq_nonneg _
  have h2 := single_le_sum (fun j _ => h0 j) (mem_univ (2 : Fin 4))
  refine le_trans ?_ h2
  have : mats (N := 4) exGR 2 = fun _ _ => (1 : ℝ) := rfl
  rw [this]
  simp

end Properties
