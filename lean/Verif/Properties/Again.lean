import Verif.Properties.LegacyLoop
import Verif.Properties.Converge
import Verif.Properties.PartDriver

/-! # C71: calling `als` and the legacy drivers again on what an earlier call left behind -/

namespace Properties

open Model

variable {N : ℕ}

section Als

variable {kind : OptKind} {dims : Fin N → ℕ} {R : ℕ} {V : Tensor ℝ} {f : Fac ℝ}

/-- The history of a call of `als` in a state reached by `k0` steps. -/
theorem again_hist (hfit : OptFits kind dims) (hS : Shaped dims R V f.W) (hG : f.G.length = N) (lam : ℝ)
    (solve : Spec.Solver ℝ) (q : ℕ) (lr : Spec.LowRank ℝ) {o0 : OptState ℝ} (h0 : optInit ℝ N kind = .ok o0) {k0 : ℕ}
    {s : OptState ℝ × Fac ℝ} (hs : iterM (optStep N R lam solve q lr V) k0 (o0, f) = .ok s)
    {a : AlsArgs} (hres : a.resprint ≠ 0) (clock : ℕ → ℝ) {fuel : ℕ} (hf : stepLimit N a.maxsweep kind < fuel) :
    ∃ (tr : ℕ → OptState ℝ × Fac ℝ) (c : ℕ → ℝ × ℝ) (r : AlsEnd (OptState ℝ × Fac ℝ)),
      (∀ k, iterM (optStep N R lam solve q lr V) k s = .ok (tr k)) ∧
      (∀ k, gradnorm (tr k).2.G N = .ok (c k).1 ∧ Model.residual V (tr k).2.W N = .ok (c k).2) ∧
      cpdAls kind N R lam solve q lr V a clock fuel s = .ok r ∧ AlsHist a (stepSweeps N kind) clock tr c r := by
  obtain ⟨o0', s', h0', hs', H⟩ := cpdAls_hist hfit hS hG lam solve q lr hres clock k0 hf
  rw [h0] at h0'
  obtain rfl := Except.ok.inj h0'
  rw [hs] at hs'
  obtain rfl := Except.ok.inj hs'
  exact H

/-- One call of `als`: its arguments and the clock during it. -/
structure Call where
  args : AlsArgs
  clock : ℕ → ℝ

/-- Several calls of `als` on one object, one after the other; also adds up the numbers of steps they made. -/
noncomputable def calls (kind : OptKind) (N R : ℕ) (lam : ℝ) (solve : Spec.Solver ℝ) (q : ℕ) (lr : Spec.LowRank ℝ)
    (V : Tensor ℝ) (fuel : ℕ) (l : List Call) (s : (OptState ℝ × Fac ℝ) × ℕ) :
    Except Fault ((OptState ℝ × Fac ℝ) × ℕ) :=
  l.foldlM (fun s c => do
    let r ← cpdAls kind N R lam solve q lr V c.args c.clock fuel s.1
    pure (r.st, s.2 + r.iters)) s

/-- **C71 (resuming).** For every optimizer, problem it handles and every finite sequence of calls of `als` on one object, each
with its own tolerance, limits and clock (so each may have been ended by its gradient test, its time limit or its sweep
limit): all calls return, and the object is left exactly as the total number of optimizer steps made by all calls leaves a fresh
one.  A run that was cut short by the time limit is continued by the next call, not restarted and not disturbed. -/
theorem C71_resume (hfit : OptFits kind dims) (hS : Shaped dims R V f.W) (hG : f.G.length = N) (lam : ℝ)
    (solve : Spec.Solver ℝ) (q : ℕ) (lr : Spec.LowRank ℝ) {o0 : OptState ℝ} (h0 : optInit ℝ N kind = .ok o0)
    (l : List Call) {fuel : ℕ} (hl : ∀ c ∈ l, c.args.resprint ≠ 0 ∧ stepLimit N c.args.maxsweep kind < fuel) :
    ∃ s k, calls kind N R lam solve q lr V fuel l ((o0, f), 0) = .ok (s, k) ∧
      iterM (optStep N R lam solve q lr V) k (o0, f) = .ok s ∧
      k ≤ (l.map fun c => stepLimit N c.args.maxsweep kind).sum := by
  suffices h : ∀ (l : List Call), (∀ c ∈ l, c.args.resprint ≠ 0 ∧ stepLimit N c.args.maxsweep kind < fuel) →
      ∀ s0 k0, iterM (optStep N R lam solve q lr V) k0 (o0, f) = .ok s0 →
      ∃ s k, calls kind N R lam solve q lr V fuel l (s0, k0) = .ok (s, k) ∧
        iterM (optStep N R lam solve q lr V) k (o0, f) = .ok s ∧
        k ≤ k0 + (l.map fun c => stepLimit N c.args.maxsweep kind).sum by
    obtain ⟨s, k, a1, a2, a3⟩ := h l hl (o0, f) 0 rfl
    exact ⟨s, k, a1, a2, by simpa using a3⟩
  intro l
  induction l with
  | nil => intro _ s0 k0 hs; exact ⟨s0, k0, rfl, hs, by simp⟩
  | cons c l ih =>
    intro hl s0 k0 hs
    obtain ⟨hres, hf⟩ := hl c (by simp)
    obtain ⟨tr, m, r, htr, _, hr, H⟩ := again_hist hfit hS hG lam solve q lr h0 hs hres c.clock hf
    have hst : iterM (optStep N R lam solve q lr V) (k0 + r.iters) (o0, f) = .ok r.st := by
      rw [iterM_add, hs, H.state]
      exact htr _
    obtain ⟨s, k, a1, a2, a3⟩ := ih (fun c hc => hl c (by simp [hc])) r.st (k0 + r.iters) hst
    refine ⟨s, k, ?_, a2, ?_⟩
    · rw [calls, List.foldlM_cons]
      simp only [bind, Except.bind, pure, Except.pure]
      rw [hr]
      exact a1
    · have hb := H.bound
      rw [alsBound_kind hfit.lo] at hb
      simp only [List.map_cons, List.sum_cons]
      omega

/-- **C71 (a converged object is left alone).** In every state an object can reach, if the gradient matrices it stores have norm
below `tol`, then `als` with that `tol` and any other arguments and clock makes no step: the object is unchanged, the log has
one row, with that norm and the residual, and the result is `true`. -/
theorem C71_converged (hfit : OptFits kind dims) (hS : Shaped dims R V f.W) (hG : f.G.length = N) (lam : ℝ)
    (solve : Spec.Solver ℝ) (q : ℕ) (lr : Spec.LowRank ℝ) {o0 : OptState ℝ} (h0 : optInit ℝ N kind = .ok o0) {k0 : ℕ}
    {s : OptState ℝ × Fac ℝ} (hs : iterM (optStep N R lam solve q lr V) k0 (o0, f) = .ok s)
    {a : AlsArgs} (hres : a.resprint ≠ 0) (hm : 0 ≤ a.maxsweep) (clock : ℕ → ℝ) {fuel : ℕ}
    (hf : stepLimit N a.maxsweep kind < fuel) {g : ℝ} (hg : gradnorm s.2.G N = .ok g) (hlt : g < a.tol) :
    ∃ d, Model.residual V s.2.W N = .ok d ∧
      cpdAls kind N R lam solve q lr V a clock fuel s = .ok ⟨0, 0, s, [⟨0, 0, g, d⟩], true, true⟩ := by
  obtain ⟨tr, c, r, htr, hc, hr, H⟩ := again_hist hfit hS hG lam solve q lr h0 hs hres clock hf
  have ht0 : tr 0 = s := (Except.ok.inj (htr 0)).symm
  have hc0 := hc 0
  rw [ht0, hg] at hc0
  have hg0 : (c 0).1 = g := (Except.ok.inj hc0.1).symm
  have hstop : Stops a (stepSweeps N kind) clock 0 (c 0).1 := by
    refine ⟨.inr (.inr (by simp)), .inl ?_⟩
    rw [hg0]; exact hlt
  have hi : r.iters = 0 := by
    by_contra hne
    exact H.before 0 (by omega) hstop
  have hbpos : 0 < alsBound a.maxsweep (stepSweeps N kind) := by
    rw [← floor_le_iff (stepSweeps_pos hfit.lo kind)]
    simpa using hm
  have hbr : r.broke = true := by
    by_contra hne
    have := H.atEnd (by simpa using hne)
    omega
  refine ⟨(c 0).2, hc0.2, ?_⟩
  rw [hr]
  have e1 := H.state
  have e2 := H.sweeps
  have e3 := H.ret
  have e4 := H.rows
  rw [hi, ht0] at e1
  rw [hi, Nat.cast_zero, zero_mul] at e2
  rw [e2] at e3
  rw [hbr, if_pos rfl, hi, logRows_succ, if_pos hstop.1, hg0] at e4
  have hne : ¬ (0 : ℚ) = (a.maxsweep : ℚ) + 1 := by
    have : (0 : ℚ) ≤ a.maxsweep := by exact_mod_cast hm
    intro h; linarith
  rw [decide_eq_true hne] at e3
  obtain ⟨r1, r2, r3, r4, r5, r6⟩ := r
  simp only at hi hbr e1 e2 e3 e4
  subst hi hbr e1 e2 e3 e4
  simp [logRows]

/-- **C71 (`als` is idempotent once it converged).** If a call ended before its sweep limit and not because of the time, then
a second call with the same or a larger `tol`, and any other arguments, makes no step, changes nothing and returns `true`. -/
theorem C71_idempotent (hfit : OptFits kind dims) (hS : Shaped dims R V f.W) (hG : f.G.length = N) (lam : ℝ)
    (solve : Spec.Solver ℝ) (q : ℕ) (lr : Spec.LowRank ℝ) {o0 : OptState ℝ} (h0 : optInit ℝ N kind = .ok o0) {k0 : ℕ}
    {s : OptState ℝ × Fac ℝ} (hs : iterM (optStep N R lam solve q lr V) k0 (o0, f) = .ok s)
    {a b : AlsArgs} (ha : a.resprint ≠ 0) (hb : b.resprint ≠ 0) (hm : 0 ≤ b.maxsweep) (htol : a.tol ≤ b.tol)
    (clock clock' : ℕ → ℝ) {fuel : ℕ} (hfa : stepLimit N a.maxsweep kind < fuel) (hfb : stepLimit N b.maxsweep kind < fuel)
    {r : AlsEnd (OptState ℝ × Fac ℝ)} (hr : cpdAls kind N R lam solve q lr V a clock fuel s = .ok r)
    (hsw : ⌊r.sweeps⌋ ≤ a.maxsweep) (htime : clock r.iters ≤ a.timelimit) :
    ∃ r', cpdAls kind N R lam solve q lr V b clock' fuel r.st = .ok r' ∧ r'.iters = 0 ∧ r'.st = r.st ∧ r'.ret = true := by
  obtain ⟨tr, c, r₀, htr, hc, hr₀, H⟩ := again_hist hfit hS hG lam solve q lr h0 hs ha clock hfa
  rw [hr] at hr₀
  obtain rfl := Except.ok.inj hr₀
  have hlt : r.iters < alsBound a.maxsweep (stepSweeps N kind) := by
    rw [← floor_le_iff (stepSweeps_pos hfit.lo kind), ← H.sweeps]
    exact hsw
  have hbr : r.broke = true := by
    by_contra hne
    have := H.atEnd (by simpa using hne)
    omega
  obtain ⟨_, _, hst⟩ := H.atBreak hbr
  have hg : gradnorm r.st.2.G N = .ok (c r.iters).1 := by rw [H.state]; exact (hc _).1
  have hlt' : (c r.iters).1 < a.tol := hst.resolve_right (not_lt.2 htime)
  have hst' : iterM (optStep N R lam solve q lr V) (k0 + r.iters) (o0, f) = .ok r.st := by
    rw [iterM_add, hs, H.state]
    exact htr _
  obtain ⟨d, _, h⟩ := C71_converged hfit hS hG lam solve q lr h0 hst' hb hm clock' hfb hg (lt_of_lt_of_le hlt' htol)
  exact ⟨_, h, rfl, rfl, rfl⟩

/-- The numbers of steps of three calls that all reach their sweep limits. -/
theorem limit_iters (hfit : OptFits kind dims) {a : AlsArgs} {clock : ℕ → ℝ} {tr : ℕ → OptState ℝ × Fac ℝ} {c : ℕ → ℝ × ℝ}
    {r : AlsEnd (OptState ℝ × Fac ℝ)} (H : AlsHist a (stepSweeps N kind) clock tr c r) (hl : a.maxsweep < ⌊r.sweeps⌋) :
    r.iters = stepLimit N a.maxsweep kind ∧ r.broke = false := by
  have hnlt : ¬ r.iters < alsBound a.maxsweep (stepSweeps N kind) := by
    rw [← floor_le_iff (stepSweeps_pos hfit.lo kind), ← H.sweeps]
    omega
  refine ⟨?_, ?_⟩
  · rw [← alsBound_kind hfit.lo]
    have := H.bound
    omega
  · cases hbr : r.broke with
    | false => rfl
    | true => exact absurd (H.atBreak hbr).1 hnlt

/-- **C71 (two calls are one).** Plain, DT and DTLR optimizers: if two calls in a row and one call with `maxsweep₁ + maxsweep₂ + 1`
all run to their sweep limits (the loop runs `maxsweep + 1` sweeps, C18), they leave the same object: factors, gradients,
and the internal state of the optimizer.  If all three print every step (`resprint = 1`) the log of the one call has the same
measurements as the logs of the two, one after the other. -/
theorem C71_split (hk : kind = .simple ∨ kind = .dt ∨ kind = .dtlr) (hfit : OptFits kind dims) (hS : Shaped dims R V f.W)
    (hG : f.G.length = N) (lam : ℝ) (solve : Spec.Solver ℝ) (q : ℕ) (lr : Spec.LowRank ℝ) {o0 : OptState ℝ}
    (h0 : optInit ℝ N kind = .ok o0) {k0 : ℕ} {s : OptState ℝ × Fac ℝ}
    (hs : iterM (optStep N R lam solve q lr V) k0 (o0, f) = .ok s) {a1 a2 a : AlsArgs}
    (h1 : a1.resprint ≠ 0) (h2 : a2.resprint ≠ 0) (h3 : a.resprint ≠ 0) (m1 : -1 ≤ a1.maxsweep) (m2 : -1 ≤ a2.maxsweep)
    (hm : a.maxsweep = a1.maxsweep + a2.maxsweep + 1) (c1 c2 c : ℕ → ℝ) {fuel : ℕ} (hf : stepLimit N a.maxsweep kind < fuel)
    {r1 r2 r : AlsEnd (OptState ℝ × Fac ℝ)} (e1 : cpdAls kind N R lam solve q lr V a1 c1 fuel s = .ok r1)
    (e2 : cpdAls kind N R lam solve q lr V a2 c2 fuel r1.st = .ok r2)
    (e : cpdAls kind N R lam solve q lr V a c fuel s = .ok r)
    (l1 : a1.maxsweep < ⌊r1.sweeps⌋) (l2 : a2.maxsweep < ⌊r2.sweeps⌋) (l : a.maxsweep < ⌊r.sweeps⌋) :
    r.st = r2.st ∧ r.iters = r1.iters + r2.iters ∧ r.sweeps = r1.sweeps + r2.sweeps ∧
      (a1.resprint = 1 → a2.resprint = 1 → a.resprint = 1 →
        r.rows.map (fun x => (x.gradnorm, x.diffV)) =
          r1.rows.map (fun x => (x.gradnorm, x.diffV)) ++ r2.rows.map fun x => (x.gradnorm, x.diffV)) := by
  have hadd : stepLimit N a.maxsweep kind = stepLimit N a1.maxsweep kind + stepLimit N a2.maxsweep kind := by
    rcases hk with rfl | rfl | rfl <;> simp only [stepLimit] <;> omega
  obtain ⟨t1, d1, r1', ht1, hd1, hr1, H1⟩ := again_hist hfit hS hG lam solve q lr h0 hs h1 c1 (fuel := fuel) (by omega)
  rw [e1] at hr1
  obtain rfl := Except.ok.inj hr1
  have hs1 : iterM (optStep N R lam solve q lr V) (k0 + r1.iters) (o0, f) = .ok r1.st := by
    rw [iterM_add, hs, H1.state]
    exact ht1 _
  obtain ⟨t2, d2, r2', ht2, hd2, hr2, H2⟩ := again_hist hfit hS hG lam solve q lr h0 hs1 h2 c2 (fuel := fuel) (by omega)
  rw [e2] at hr2
  obtain rfl := Except.ok.inj hr2
  obtain ⟨t, d, r', ht, hd, hr, H⟩ := again_hist hfit hS hG lam solve q lr h0 hs h3 c (fuel := fuel) (by omega)
  rw [e] at hr
  obtain rfl := Except.ok.inj hr
  obtain ⟨i1, b1⟩ := limit_iters hfit H1 l1
  obtain ⟨i2, b2⟩ := limit_iters hfit H2 l2
  obtain ⟨i, b⟩ := limit_iters hfit H l
  have hit : r.iters = r1.iters + r2.iters := by omega
  have hjoin : ∀ k, t (r1.iters + k) = t2 k := by
    intro k
    have := ht (r1.iters + k)
    rw [iterM_add, ht1, ← H1.state] at this
    have h' := ht2 k
    simp only [Except.bind] at this
    rw [h'] at this
    exact (Except.ok.inj this).symm
  have hsame : ∀ k, t k = t1 k := fun k => by
    have := ht k
    rw [ht1] at this
    exact (Except.ok.inj this).symm
  have hd1' : ∀ k, d k = d1 k := by
    intro k
    obtain ⟨x, y⟩ := hd k
    rw [hsame, (hd1 k).1] at x
    rw [hsame, (hd1 k).2] at y
    exact Prod.ext (Except.ok.inj x).symm (Except.ok.inj y).symm
  have hd2' : ∀ k, d (r1.iters + k) = d2 k := by
    intro k
    obtain ⟨x, y⟩ := hd (r1.iters + k)
    rw [hjoin, (hd2 k).1] at x
    rw [hjoin, (hd2 k).2] at y
    exact Prod.ext (Except.ok.inj x).symm (Except.ok.inj y).symm
  refine ⟨by rw [H.state, H2.state, hit, hjoin], hit, ?_, ?_⟩
  · rw [H.sweeps, H1.sweeps, H2.sweeps, hit]
    push_cast
    ring
  · intro p1 p2 p
    have hall : ∀ (a : AlsArgs), a.resprint = 1 → ∀ (c : ℕ → ℝ × ℝ) (n : ℕ),
        (logRows a (stepSweeps N kind) c n).map (fun x => (x.gradnorm, x.diffV)) = (List.range n).map c := by
      intro a ha c n
      unfold logRows
      rw [List.filter_eq_self.2, List.map_map]
      · rfl
      · intro j _
        simp only [decide_eq_true_eq, alsChecked, ha]
        exact .inl (Int.tmod_one _)
    rw [H.rows, H1.rows, H2.rows, b, b1, b2]
    simp only [Bool.false_eq_true, if_false]
    rw [hall a p, hall a1 p1, hall a2 p2, hit, List.range_add, List.map_append, List.map_map]
    congr 1
    · exact List.map_congr_left fun k _ => hd1' k
    · exact List.map_congr_left fun k _ => hd2' k

theorem ceil_split {x y : ℚ} (hx : 0 ≤ x) (hy : 0 ≤ y) : ⌈x + y⌉₊ ≤ ⌈x⌉₊ + ⌈y⌉₊ ∧ ⌈x⌉₊ + ⌈y⌉₊ ≤ ⌈x + y⌉₊ + 1 := by
  refine ⟨Nat.ceil_add_le x y, ?_⟩
  have h1 := Nat.ceil_lt_add_one hx
  have h2 := Nat.ceil_lt_add_one hy
  have h3 := Nat.le_ceil (x + y)
  have : ((⌈x⌉₊ + ⌈y⌉₊ : ℕ) : ℚ) < ((⌈x + y⌉₊ + 2 : ℕ) : ℚ) := by push_cast; linarith
  have := Nat.cast_lt.1 this
  omega

/-- **C71 (multi-sweep optimizers; two calls need not be one).** With MSDT or MSDTLR a step is `(N-1)/N` of a sweep, so a call
overshoots its limit unless `N-1` divides `maxsweep + 1`: two calls make as many steps as the one call, or one more; the same number,
and then leave the same object, if `N-1` divides `maxsweep₁ + 1`. -/
theorem C71_split_msdt (hk : kind = .msdt ∨ kind = .msdtlr) (hfit : OptFits kind dims) (hS : Shaped dims R V f.W)
    (hG : f.G.length = N) (lam : ℝ) (solve : Spec.Solver ℝ) (q : ℕ) (lr : Spec.LowRank ℝ) {o0 : OptState ℝ}
    (h0 : optInit ℝ N kind = .ok o0) {k0 : ℕ} {s : OptState ℝ × Fac ℝ}
    (hs : iterM (optStep N R lam solve q lr V) k0 (o0, f) = .ok s) {a1 a2 a : AlsArgs}
    (h1 : a1.resprint ≠ 0) (h2 : a2.resprint ≠ 0) (h3 : a.resprint ≠ 0) (m1 : -1 ≤ a1.maxsweep) (m2 : -1 ≤ a2.maxsweep)
    (hm : a.maxsweep = a1.maxsweep + a2.maxsweep + 1) (c1 c2 c : ℕ → ℝ) {fuel : ℕ}
    (hf1 : stepLimit N a1.maxsweep kind < fuel) (hf2 : stepLimit N a2.maxsweep kind < fuel)
    (hf : stepLimit N a.maxsweep kind < fuel)
    {r1 r2 r : AlsEnd (OptState ℝ × Fac ℝ)} (e1 : cpdAls kind N R lam solve q lr V a1 c1 fuel s = .ok r1)
    (e2 : cpdAls kind N R lam solve q lr V a2 c2 fuel r1.st = .ok r2)
    (e : cpdAls kind N R lam solve q lr V a c fuel s = .ok r)
    (l1 : a1.maxsweep < ⌊r1.sweeps⌋) (l2 : a2.maxsweep < ⌊r2.sweeps⌋) (l : a.maxsweep < ⌊r.sweeps⌋) :
    r.iters ≤ r1.iters + r2.iters ∧ r1.iters + r2.iters ≤ r.iters + 1 ∧
      (((N : ℤ) - 1) ∣ a1.maxsweep + 1 → r.iters = r1.iters + r2.iters) ∧
      (r.iters = r1.iters + r2.iters → r.st = r2.st) := by
  have hN : (3 : ℚ) ≤ N := by exact_mod_cast hfit.lo
  have hN1 : (0 : ℚ) < (N : ℚ) - 1 := by linarith
  obtain ⟨t1, d1, r1', ht1, hd1, hr1, H1⟩ := again_hist hfit hS hG lam solve q lr h0 hs h1 c1 hf1
  rw [e1] at hr1
  obtain rfl := Except.ok.inj hr1
  have hs1 : iterM (optStep N R lam solve q lr V) (k0 + r1.iters) (o0, f) = .ok r1.st := by
    rw [iterM_add, hs, H1.state]
    exact ht1 _
  obtain ⟨t2, d2, r2', ht2, hd2, hr2, H2⟩ := again_hist hfit hS hG lam solve q lr h0 hs1 h2 c2 hf2
  rw [e2] at hr2
  obtain rfl := Except.ok.inj hr2
  obtain ⟨t, d, r', ht, hd, hr, H⟩ := again_hist hfit hS hG lam solve q lr h0 hs h3 c hf
  rw [e] at hr
  obtain rfl := Except.ok.inj hr
  have i1 := (limit_iters hfit H1 l1).1
  have i2 := (limit_iters hfit H2 l2).1
  have i := (limit_iters hfit H l).1
  have hlim : ∀ m : ℤ, stepLimit N m kind = ⌈((m : ℚ) + 1) * N / (N - 1)⌉₊ := by
    intro m
    rcases hk with rfl | rfl <;> rfl
  rw [hlim] at i1 i2 i
  have hx1 : 0 ≤ ((a1.maxsweep : ℚ) + 1) * N / (N - 1) := by
    have : (-1 : ℚ) ≤ a1.maxsweep := by exact_mod_cast m1
    apply div_nonneg (mul_nonneg (by linarith) (by linarith)) hN1.le
  have hx2 : 0 ≤ ((a2.maxsweep : ℚ) + 1) * N / (N - 1) := by
    have : (-1 : ℚ) ≤ a2.maxsweep := by exact_mod_cast m2
    apply div_nonneg (mul_nonneg (by linarith) (by linarith)) hN1.le
  have hsum : ((a.maxsweep : ℚ) + 1) * N / (N - 1) =
      ((a1.maxsweep : ℚ) + 1) * N / (N - 1) + ((a2.maxsweep : ℚ) + 1) * N / (N - 1) := by
    rw [hm]; push_cast; ring
  rw [hsum] at i
  obtain ⟨b1, b2⟩ := ceil_split hx1 hx2
  refine ⟨by omega, by omega, ?_, ?_⟩
  · rintro ⟨d, hd⟩
    have hd' : (a1.maxsweep : ℚ) + 1 = ((N : ℚ) - 1) * d := by exact_mod_cast hd
    have hd0 : 0 ≤ d := by
      by_contra hneg
      have h1 : ((N : ℚ) - 1) * d < 0 := mul_neg_of_pos_of_neg hN1 (by exact_mod_cast not_le.1 hneg)
      have : (-1 : ℚ) ≤ a1.maxsweep := by exact_mod_cast m1
      linarith
    obtain ⟨n, rfl⟩ := Int.eq_ofNat_of_zero_le hd0
    have hx : ((a1.maxsweep : ℚ) + 1) * N / (N - 1) = ((n * N : ℕ) : ℚ) := by
      rw [hd']
      push_cast
      field_simp
    rw [hx] at i i1
    rw [Nat.ceil_natCast] at i1
    rw [add_comm, Nat.ceil_add_natCast hx2] at i
    omega
  · intro hit
    have hjoin : t (r1.iters + r2.iters) = t2 r2.iters := by
      have := ht (r1.iters + r2.iters)
      rw [iterM_add, ht1, ← H1.state] at this
      have h' := ht2 r2.iters
      simp only [Except.bind] at this
      rw [h'] at this
      exact (Except.ok.inj this).symm
    rw [H.state, H2.state, hit, hjoin]

/-- Order 3 and `maxsweep = 0` twice: 2 + 2 steps, but one call with `maxsweep = 1` makes 3. -/
theorem C71_split_msdt_differs : stepLimit 3 0 .msdt + stepLimit 3 0 .msdt = 4 ∧ stepLimit 3 1 .msdt = 3 := by
  have h1 : stepLimit 3 0 .msdt = 2 := by
    rw [stepLimit, Nat.ceil_eq_iff (by norm_num)]
    norm_num
  have h2 : stepLimit 3 1 .msdt = 3 := by
    rw [stepLimit, Nat.ceil_eq_iff (by norm_num)]
    norm_num
  omega

end Als

/-! ## The legacy drivers -/

section Legacy

variable {dims : Fin N → ℕ} {R : ℕ} {V : Tensor ℝ}

/-- **C71 (`alsCP_DT`, idempotent).** If a call ended with `true` and not because of the time, a second call with the same or a larger
`tol` returns `true` after no sweep and leaves factors and gradients as they are. -/
theorem C71_cp_dt_idempotent (h4 : 4 ≤ N) (h5 : N ≠ 5) (hN : N ≤ 18) {F : List (Tensor ℝ)} (hF : Shaped dims R V F)
    {f : Fac ℝ} (hS : Shaped dims R V f.W) (hG : f.G.length = N) (lam : ℝ) (solve : Spec.Solver ℝ) {a b : LLArgs}
    (ma : 0 ≤ a.maxiter) (mb : 0 ≤ b.maxiter) (ha : a.resprint ≠ 0) (hb : b.resprint ≠ 0) (htol : a.tol ≤ b.tol)
    (clock clock' : ℕ → ℝ) {fuel : ℕ} (hfa : (a.maxiter + 1).toNat < fuel) (hfb : (b.maxiter + 1).toNat < fuel)
    {r : LLEnd (Fac ℝ)} (hr : alsCPDT N R lam solve V F a clock fuel f = .ok r) (hret : r.ret = true)
    (htime : clock r.iter ≤ a.timelimit) :
    ∃ r', alsCPDT N R lam solve V F b clock' fuel r.st = .ok r' ∧ r'.iter = 0 ∧ r'.st = r.st ∧ r'.ret = true := by
  obtain ⟨r₀, tr, g, hr₀, htr, hst, hg, hfs, _⟩ := C48_cp_dt h4 h5 hN hF hS hG lam solve ma ha clock hfa
  rw [hr] at hr₀
  obtain rfl := Except.ok.inj hr₀
  obtain ⟨_, _, hlt⟩ := hfs.yes.1 hret
  have hlt := hlt.resolve_right (not_lt.2 htime)
  have hshape : ∀ k, Shaped dims R V (tr k).W ∧ (tr k).G.length = N := by
    intro k
    induction k with
    | zero => rw [← Except.ok.inj (htr 0)]; exact ⟨hS, hG⟩
    | succ k ih =>
      obtain ⟨f', x1, x2, x3⟩ := legacySweep_shape h4 h5 (by omega) hF ih.1 ih.2 lam solve
      have := htr (k + 1)
      rw [iterM_succ_right', htr k] at this
      simp only [bind, Except.bind] at this
      rw [x1] at this
      rw [← Except.ok.inj this]
      exact ⟨x2, x3⟩
  obtain ⟨r', tr', g', hr', htr', hst', hg', hfs', _⟩ := C48_cp_dt h4 h5 hN hF (hshape r.iter).1 (hshape r.iter).2 lam solve mb hb
    clock' hfb
  rw [← hst] at hr' htr'
  have h0 : tr' 0 = r.st := (Except.ok.inj (htr' 0)).symm
  have hg0 : g' 0 = g r.iter := by
    have h1 := hg' 0
    rw [h0, hst, hg] at h1
    exact (Except.ok.inj h1).symm
  have hstop : (Int.tmod ((0 : ℕ) : ℤ) b.resprint = 0 ∨ ((0 : ℕ) : ℤ) = b.maxiter) ∧
      (g' 0 < b.tol ∨ b.timelimit < clock' 0) := ⟨.inl (by simp), .inl (by rw [hg0]; linarith)⟩
  have hi : r'.iter = 0 := by
    by_contra hne
    exact hfs'.before 0 (by omega) hstop
  refine ⟨r', hr', hi, by rw [hst', hi, h0], hfs'.yes.2 ?_⟩
  rw [hi]
  exact ⟨by simpa using mb, hstop⟩

/-- **C71 (`alsCP_DT`, two calls are one).** If two calls in a row and one with `maxiter₁ + maxiter₂ + 1` all return `false`, they leave
the same factors and gradients. -/
theorem C71_cp_dt_split (h4 : 4 ≤ N) (h5 : N ≠ 5) (hN : N ≤ 18) {F : List (Tensor ℝ)} (hF : Shaped dims R V F)
    {f : Fac ℝ} (hS : Shaped dims R V f.W) (hG : f.G.length = N) (lam : ℝ) (solve : Spec.Solver ℝ) {a1 a2 a : LLArgs}
    (m1 : 0 ≤ a1.maxiter) (m2 : 0 ≤ a2.maxiter) (h1 : a1.resprint ≠ 0) (h2 : a2.resprint ≠ 0) (h3 : a.resprint ≠ 0)
    (hm : a.maxiter = a1.maxiter + a2.maxiter + 1) (c1 c2 c : ℕ → ℝ) {fuel : ℕ} (hf : (a.maxiter + 1).toNat < fuel)
    {r1 r2 r : LLEnd (Fac ℝ)} (e1 : alsCPDT N R lam solve V F a1 c1 fuel f = .ok r1)
    (e2 : alsCPDT N R lam solve V F a2 c2 fuel r1.st = .ok r2) (e : alsCPDT N R lam solve V F a c fuel f = .ok r)
    (l1 : r1.ret = false) (l2 : r2.ret = false) (l : r.ret = false) : r.st = r2.st := by
  obtain ⟨_, t1, _, hr1, ht1, hst1, _, hfs1, _⟩ := C48_cp_dt h4 h5 hN hF hS hG lam solve m1 h1 c1 (fuel := fuel) (by omega)
  rw [e1] at hr1
  obtain rfl := Except.ok.inj hr1
  obtain ⟨_, t, _, hr, ht, hst, _, hfs, _⟩ := C48_cp_dt h4 h5 hN hF hS hG lam solve (a := a) (by omega) h3 c hf
  rw [e] at hr
  obtain rfl := Except.ok.inj hr
  have hshape : ∀ k, Shaped dims R V (t1 k).W ∧ (t1 k).G.length = N := by
    intro k
    induction k with
    | zero => rw [← Except.ok.inj (ht1 0)]; exact ⟨hS, hG⟩
    | succ k ih =>
      obtain ⟨f', x1, x2, x3⟩ := legacySweep_shape h4 h5 (by omega) hF ih.1 ih.2 lam solve
      have := ht1 (k + 1)
      rw [iterM_succ_right', ht1 k] at this
      simp only [bind, Except.bind] at this
      rw [x1] at this
      rw [← Except.ok.inj this]
      exact ⟨x2, x3⟩
  obtain ⟨_, t2, _, hr2, ht2, hst2, _, hfs2, _⟩ := C48_cp_dt h4 h5 hN hF (hshape r1.iter).1 (hshape r1.iter).2 lam solve m2 h2 c2
    (fuel := fuel) (by omega)
  rw [← hst1] at hr2 ht2
  rw [e2] at hr2
  obtain rfl := Except.ok.inj hr2
  have i1 := hfs1.no.1 l1
  have i2 := hfs2.no.1 l2
  have i := hfs.no.1 l
  have hit : r.iter = r1.iter + r2.iter := by omega
  have := ht r.iter
  rw [hit, iterM_add, ht1, ← hst1] at this
  have h' := ht2 r2.iter
  simp only [Except.bind] at this
  rw [h'] at this
  rw [hst, hst2, hit]
  exact (Except.ok.inj this).symm

end Legacy

/-! Non-vacuity. -/

section Examples

/-- Two sweeps limits that end the calls: tolerance 0 is never met. -/
noncomputable def exLimit (m : ℤ) : AlsArgs := ⟨0, 60, m, 1⟩

theorem exFitsDT : OptFits (N := 4) .dt ![2, 3, 1, 4] := ⟨by norm_num, by norm_num, by simp⟩

example : ∃ o0, optInit ℝ 4 .dt = .ok o0 ∧ ∃ s k, calls .dt 4 2 (1 / 2) (fun _ _ M _ => M) 1 exLRR exVR 100
      [⟨exLimit 3, fun k => k⟩, ⟨exArgs, fun k => 100 * k⟩] ((o0, exFacR), 0) = .ok (s, k) := by
  obtain ⟨o0, h0, _⟩ := opt_reach exFitsDT exShapedR rfl (1 / 2) (fun _ _ M _ => M) 1 exLRR
  obtain ⟨s, k, h, _⟩ := C71_resume exFitsDT exShapedR rfl (1 / 2) (fun _ _ M _ => M) 1 exLRR h0
    [⟨exLimit 3, fun k => k⟩, ⟨exArgs, fun k => 100 * k⟩] (fuel := 100) (by
      intro c hc
      simp only [List.mem_cons, List.not_mem_nil, or_false] at hc
      rcases hc with rfl | rfl <;> simp [exLimit, exArgs, stepLimit])
  exact ⟨o0, h0, s, k, h⟩

/-- Every call with `tol = 0` and enough time reaches its sweep limit. -/
theorem reaches_limit {kind : OptKind} {dims : Fin N → ℕ} {R : ℕ} {V : Tensor ℝ} {f : Fac ℝ} (hfit : OptFits kind dims)
    (hS : Shaped dims R V f.W) (hG : f.G.length = N) (lam : ℝ)
    (solve : Spec.Solver ℝ) (q : ℕ) (lr : Spec.LowRank ℝ) {o0 : OptState ℝ} (h0 : optInit ℝ N kind = .ok o0) {k0 : ℕ}
    {s : OptState ℝ × Fac ℝ} (hs : iterM (optStep N R lam solve q lr V) k0 (o0, f) = .ok s)
    {a : AlsArgs} (hres : a.resprint ≠ 0) (hm : -1 ≤ a.maxsweep) (ht : a.tol ≤ 0) {clock : ℕ → ℝ} (hcl : ∀ k, clock k ≤ a.timelimit)
    {fuel : ℕ} (hf : stepLimit N a.maxsweep kind < fuel) :
    ∃ r, cpdAls kind N R lam solve q lr V a clock fuel s = .ok r ∧ a.maxsweep < ⌊r.sweeps⌋ ∧
      iterM (optStep N R lam solve q lr V) (k0 + r.iters) (o0, f) = .ok r.st := by
  obtain ⟨tr, c, r, htr, hc, hr, H⟩ := again_hist hfit hS hG lam solve q lr h0 hs hres clock hf
  refine ⟨r, hr, ?_, ?_⟩
  · by_contra hle
    rw [not_lt, H.sweeps, floor_le_iff (stepSweeps_pos hfit.lo kind)] at hle
    have hbr : r.broke = true := by
      by_contra hne
      have := H.atEnd (by simpa using hne)
      omega
    rcases (H.atBreak hbr).2.2 with h | h
    · have := gradnorm_nonneg (hc r.iters).1
      linarith
    · exact absurd h (not_lt.2 (hcl _))
  · rw [iterM_add, hs, H.state]
    exact htr _

/-- Calls with limits 3 and 2 and one with limit 6. -/
example : ∃ o0 r1 r2 r, optInit ℝ 4 .dt = .ok o0 ∧
    cpdAls .dt 4 2 (1 / 2) (fun _ _ M _ => M) 1 exLRR exVR (exLimit 3) (fun _ => 0) 100 (o0, exFacR) = .ok r1 ∧
    cpdAls .dt 4 2 (1 / 2) (fun _ _ M _ => M) 1 exLRR exVR (exLimit 2) (fun _ => 0) 100 r1.st = .ok r2 ∧
    cpdAls .dt 4 2 (1 / 2) (fun _ _ M _ => M) 1 exLRR exVR (exLimit 6) (fun _ => 0) 100 (o0, exFacR) = .ok r ∧
    r.st = r2.st := by
  obtain ⟨o0, h0, _⟩ := opt_reach exFitsDT exShapedR rfl (1 / 2) (fun _ _ M _ => M) 1 exLRR
  obtain ⟨r1, e1, l1, s1⟩ := reaches_limit exFitsDT exShapedR rfl (1 / 2) (fun _ _ M _ => M) 1 exLRR h0 (k0 := 0) rfl
    (a := exLimit 3) (by simp [exLimit]) (by simp [exLimit]) (by simp [exLimit]) (clock := fun _ => 0) (by simp [exLimit])
    (fuel := 100) (by simp [exLimit, stepLimit])
  obtain ⟨r2, e2, l2, _⟩ := reaches_limit exFitsDT exShapedR rfl (1 / 2) (fun _ _ M _ => M) 1 exLRR h0 s1
    (a := exLimit 2) (by simp [exLimit]) (by simp [exLimit]) (by simp [exLimit]) (clock := fun _ => 0) (by simp [exLimit])
    (fuel := 100) (by simp [exLimit, stepLimit])
  obtain ⟨r, e, l, _⟩ := reaches_limit exFitsDT exShapedR rfl (1 / 2) (fun _ _ M _ => M) 1 exLRR h0 (k0 := 0) rfl
    (a := exLimit 6) (by simp [exLimit]) (by simp [exLimit]) (by simp [exLimit]) (clock := fun _ => 0) (by simp [exLimit])
    (fuel := 100) (by simp [exLimit, stepLimit])
  exact ⟨o0, r1, r2, r, h0, e1, e2, e, (C71_split (.inr (.inl rfl)) exFitsDT exShapedR rfl (1 / 2) (fun _ _ M _ => M) 1 exLRR h0
    (k0 := 0) rfl (by simp [exLimit]) (by simp [exLimit]) (by simp [exLimit]) (by simp [exLimit]) (by simp [exLimit])
    (by simp [exLimit]) _ _ _ (by simp [exLimit, stepLimit]) e1 e2 e l1 l2 l).1⟩

/-- A call that converges (C65), and a second one. -/
example : ∃ (k : Kern ℝ) (a : AlsArgs) (o0 : OptState ℝ) (r r' : AlsEnd (OptState ℝ × Fac ℝ)), KernOk k ∧
    cpdAls .msdt 4 2 (1 / 2) (cholSolver k) 1 exLRR exVR a (fun _ => 0) (stepLimit 4 a.maxsweep .msdt + 1) (o0, exFacR) =
      .ok r ∧
    cpdAls .msdt 4 2 (1 / 2) (cholSolver k) 1 exLRR exVR a (fun k => k) (stepLimit 4 a.maxsweep .msdt + 1) r.st =
      .ok r' ∧ r'.iters = 0 := by
  obtain ⟨k, hk⟩ := exists_kernOk
  let a : AlsArgs := ⟨1 / 1000, 60, ⌈|((10 : ℤ) : ℝ)| * testBound ![2, 3, 1, 4] 2 (1 / 2) (arr exVR 4) (mats exFacR.W) (1 / 1000)⌉, 10⟩
  obtain ⟨o0, r, g, h1, h2, h3, h4, h5, h6⟩ := C65_als_converges (.inr (.inr rfl)) exFits exShapedR exFacR_G
    (lam := 1 / 2) (by norm_num) (C12_cholesky_solver hk) 1 exLRR
    (a := a) (by norm_num [a]) (by norm_num [a]) (clock := fun _ => 0) (fun _ => by norm_num [a]) (Int.le_ceil _) (Nat.lt_succ_self _)
  have hs : iterM (optStep 4 2 (1 / 2) (cholSolver k) 1 exLRR exVR) 0 (o0, exFacR) = .ok (o0, exFacR) := rfl
  obtain ⟨tr, c, r₀, htr, _, hr₀, H⟩ := again_hist exFits exShapedR rfl (1 / 2) (cholSolver k) 1 exLRR h1 hs
    (a := a) (by norm_num [a]) (fun _ => 0) (Nat.lt_succ_self _)
  rw [h2] at hr₀
  obtain rfl := Except.ok.inj hr₀
  have hst : iterM (optStep 4 2 (1 / 2) (cholSolver k) 1 exLRR exVR) (0 + r.iters) (o0, exFacR) = .ok r.st := by
    rw [iterM_add, hs, H.state]
    exact htr _
  have hm : 0 ≤ a.maxsweep := by
    have h7 : |((10 : ℤ) : ℝ)| * testBound ![2, 3, 1, 4] 2 (1 / 2) (arr exVR 4) (mats exFacR.W) (1 / 1000) ≤ (a.maxsweep : ℝ) :=
      Int.le_ceil _
    have h8 : (0 : ℝ) ≤ (a.maxsweep : ℝ) := le_trans (Nat.cast_nonneg _) (h6.trans h7)
    exact_mod_cast h8
  obtain ⟨d, _, h⟩ := C71_converged exFits exShapedR rfl (1 / 2) (cholSolver k) 1 exLRR h1 hst (a := a) (by norm_num [a])
    hm (fun k => k) (Nat.lt_succ_self _) h4 h5
  exact ⟨k, a, o0, r, _, hk, h2, h, rfl⟩

theorem exF0_shaped : Shaped (N := 4) ![2, 3, 1, 4] 2 exVR exF0 :=
  ⟨rfl, rfl, by intro j M h; fin_cases j <;> (simp [exF0] at h; subst h; rfl)⟩

/-- A call of `alsCP_DT` that returns `true`, so that `C71_cp_dt_idempotent` applies. -/
example : ∃ r, alsCPDT 4 2 (1 / 2) (fun _ _ M _ => M) exVR exF0 ⟨1, 60, 6, 10⟩ (fun _ => 0) 100 ⟨exFacR.W, exF0⟩ = .ok r ∧
    r.ret = true := by
  obtain ⟨r, h, _, h', _⟩ := C48_cp_dt_zero_gradient (by norm_num) (by norm_num) (by norm_num) exF0_shaped
    (f := ⟨exFacR.W, exF0⟩) exShapedR exF0_shaped (by
      intro j x _ r _
      fin_cases j <;> rfl) (1 / 2) (fun _ _ M _ => M) (a := ⟨1, 60, 6, 10⟩) (by norm_num) (by norm_num) (by norm_num)
    (fun _ => 0) (fuel := 100) (by norm_num)
  exact ⟨r, h, h'⟩

end Examples

end Properties
