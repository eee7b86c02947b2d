import Verif.Proofs.AlsLoop
import Verif.Properties.LowRank
import Verif.Properties.Build
import Verif.Properties.Solve

/-! # C18 - C21: the driver loop `CPD::als` -/

namespace Properties

open Model

variable {N : ℕ}

/-- The problems a given optimizer handles: order 3..18 (the residual is rebuilt with `build_V`); the plain optimizer
needs equal mode lengths and order at most 10 (C01, C02, C03). -/
structure OptFits (kind : OptKind) (dims : Fin N → ℕ) : Prop where
  lo : 3 ≤ N
  hi : N ≤ 18
  plain : kind = .simple → N ≤ 10 ∧ ∃ s, dims = fun _ => s

/-- Number of optimizer steps that `maxsweep` allows. -/
def stepLimit (N : ℕ) (maxsweep : ℤ) : OptKind → ℕ
  | .simple => (maxsweep + 1).toNat
  | .dt => (2 * (maxsweep + 1)).toNat
  | .dtlr => (2 * (maxsweep + 1)).toNat
  | .msdt => ⌈((maxsweep : ℚ) + 1) * N / (N - 1)⌉₊
  | .msdtlr => ⌈((maxsweep : ℚ) + 1) * N / (N - 1)⌉₊

theorem iterM_map {σ τ : Type} {s1 : σ → Except Fault σ} {s2 : τ → Except Fault τ} (g : σ → τ)
    (h : ∀ x, s2 (g x) = (s1 x).map g) (k : ℕ) (x : σ) : iterM s2 k (g x) = (iterM s1 k x).map g := by
  induction k generalizing x with
  | zero => rfl
  | succ k ih =>
    simp only [iterM, h, bind, Except.bind]
    cases s1 x with
    | error e => rfl
    | ok y => exact ih y

section
variable {K : Type} [CommRing K]

/-- Every optimizer can be constructed and stepped any number of times. -/
theorem opt_reach {kind : OptKind} {dims : Fin N → ℕ} (hfit : OptFits kind dims) {R : ℕ} {V : Tensor K} {f : Fac K}
    (hS : Shaped dims R V f.W) (hG : f.G.length = N) (lam : K) (solve : Spec.Solver K) (q : ℕ) (lr : Spec.LowRank K) :
    ∃ o0, optInit K N kind = .ok o0 ∧ ∀ k, ∃ s, iterM (optStep N R lam solve q lr V) k (o0, f) = .ok s ∧
      Shaped dims R V s.2.W ∧ s.2.G.length = N := by
  have h3 := hfit.lo
  have hN : N ≤ 31 := by have := hfit.hi; omega
  cases kind with
  | simple =>
    obtain ⟨h10, s, rfl⟩ := hfit.plain rfl
    refine ⟨.simple, rfl, fun k => ?_⟩
    have : ∃ g, iterM (simpleStep N R lam solve V) k f = .ok g ∧ Shaped (fun _ : Fin N => s) R V g.W ∧ g.G.length = N := by
      induction k with
      | zero => exact ⟨f, rfl, hS, hG⟩
      | succ k ih =>
        obtain ⟨f1, a1, a2, a3⟩ := ih
        obtain ⟨f2, b1, b2, b3, _⟩ := simpleStep_ok (by omega) h10 a2 a3 lam solve
        exact ⟨f2, by rw [iterM_succ_right, a1]; exact b1, b2, b3⟩
    obtain ⟨g, a1, a2, a3⟩ := this
    refine ⟨(.simple, g), ?_, a2, a3⟩
    have := iterM_map (s1 := simpleStep N R lam solve V) (s2 := optStep N R lam solve q lr V)
      (fun g => ((.simple : OptState K), g)) (fun x => by
        simp only [optStep, bind, Except.bind, Except.map]
        cases simpleStep N R lam solve V x <;> rfl) k f
    rw [this, a1]
    rfl
  | dt =>
    obtain ⟨o0, _, _, h0, _⟩ := dt_reach h3 hN hS hG lam solve 0
    refine ⟨.dt o0, by simp [optInit, h0, bind, Except.bind, pure, Except.pure], fun k => ?_⟩
    obtain ⟨o0', o, f', h0', a1, a2, a3, _⟩ := dt_reach h3 hN hS hG lam solve k
    rw [h0] at h0'
    cases h0'
    refine ⟨(.dt o, f'), ?_, a2, a3⟩
    have := iterM_map (s1 := dtStep N R lam solve V) (s2 := optStep N R lam solve q lr V)
      (fun g => ((.dt g.1 : OptState K), g.2)) (fun x => by
        obtain ⟨x1, x2⟩ := x
        simp only [optStep, bind, Except.bind, Except.map]
        cases dtStep N R lam solve V (x1, x2) <;> rfl) k (o0, f)
    rw [this, a1]
    rfl
  | dtlr =>
    obtain ⟨o0, h0, h⟩ := dtlr_reach h3 hN hS hG lam solve q lr
    refine ⟨.dtlr o0, by simp [optInit, h0, bind, Except.bind, pure, Except.pure], fun k => ?_⟩
    obtain ⟨o, f', a1, a2, a3, _⟩ := h k
    refine ⟨(.dtlr o, f'), ?_, a2, a3⟩
    have := iterM_map (s1 := dtlrStep N R lam solve q lr V) (s2 := optStep N R lam solve q lr V)
      (fun g => ((.dtlr g.1 : OptState K), g.2)) (fun x => by
        obtain ⟨x1, x2⟩ := x
        simp only [optStep, bind, Except.bind, Except.map]
        cases dtlrStep N R lam solve q lr V (x1, x2) <;> rfl) k (o0, f)
    rw [this, a1]
    rfl
  | msdt =>
    obtain ⟨o0, h0, hl, ht⟩ := msdtInit_ok h3 hN
    refine ⟨.msdt o0, by simp [optInit, h0, bind, Except.bind, pure, Except.pure], fun k => ?_⟩
    obtain ⟨s, f1, a1, a2, a3, _⟩ := msdt_steps h3 hN ht hl hS hG lam solve k
    refine ⟨(.msdt s, f1), ?_, a2, a3⟩
    have := iterM_map (s1 := msdtStep N R lam solve V) (s2 := optStep N R lam solve q lr V)
      (fun g => ((.msdt g.1 : OptState K), g.2)) (fun x => by
        obtain ⟨x1, x2⟩ := x
        simp only [optStep, bind, Except.bind, Except.map]
        cases msdtStep N R lam solve V (x1, x2) <;> rfl) k (o0, f)
    rw [this, a1]
    rfl
  | msdtlr =>
    obtain ⟨o0, S, F, h0, h⟩ := msdtlr_reach h3 hN hS hG lam solve q lr
    refine ⟨.msdtlr o0, by simp [optInit, h0, bind, Except.bind, pure, Except.pure], fun k => ?_⟩
    obtain ⟨a1, a2, a3, _⟩ := h k
    refine ⟨(.msdtlr (S k), F k), ?_, a2, a3⟩
    have := iterM_map (s1 := msdtlrStep N R lam solve q lr V) (s2 := optStep N R lam solve q lr V)
      (fun g => ((.msdtlr g.1 : OptState K), g.2)) (fun x => by
        obtain ⟨x1, x2⟩ := x
        simp only [optStep, bind, Except.bind, Except.map]
        cases msdtlrStep N R lam solve q lr V (x1, x2) <;> rfl) k (o0, f)
    rw [this, a1]
    rfl

end

theorem stepSweeps_pos (h3 : 3 ≤ N) (kind : OptKind) : 0 < stepSweeps N kind := by
  have h : (3 : ℚ) ≤ N := by exact_mod_cast h3
  cases kind <;> simp only [stepSweeps] <;> first | exact div_pos (by linarith) (by linarith) | norm_num

theorem alsBound_kind (h3 : 3 ≤ N) (m : ℤ) (kind : OptKind) :
    alsBound m (stepSweeps N kind) = stepLimit N m kind := by
  cases kind <;> simp only [stepSweeps, stepLimit]
  · exact alsBound_simple
  · exact alsBound_half
  · exact alsBound_half
  all_goals
    unfold alsBound
    rw [div_div_eq_mul_div]

theorem gradnorm_ok {G : List (Tensor ℝ)} (hG : G.length = N) : ∃ g, gradnorm G N = .ok g :=
  ⟨_, gradnorm_eq (T := fun j => G.getD j ⟨[], fun _ => 0⟩) fun j hj => by
    rw [List.getD_eq_getElem?_getD, List.getElem?_eq_getElem (by omega)]
    rfl⟩

/-- Everything about a call of `als`, after `k0` earlier steps of a fresh optimizer. -/
theorem cpdAls_hist {kind : OptKind} {dims : Fin N → ℕ} (hfit : OptFits kind dims) {R : ℕ} {V : Tensor ℝ} {f : Fac ℝ}
    (hS : Shaped dims R V f.W) (hG : f.G.length = N) (lam : ℝ) (solve : Spec.Solver ℝ) (q : ℕ) (lr : Spec.LowRank ℝ)
    {a : AlsArgs} (hres : a.resprint ≠ 0) (clock : ℕ → ℝ) (k0 : ℕ) {fuel : ℕ} (hf : stepLimit N a.maxsweep kind < fuel) :
    ∃ o0 s, optInit ℝ N kind = .ok o0 ∧ iterM (optStep N R lam solve q lr V) k0 (o0, f) = .ok s ∧
      ∃ (tr : ℕ → OptState ℝ × Fac ℝ) (c : ℕ → ℝ × ℝ) (r : AlsEnd (OptState ℝ × Fac ℝ)),
        (∀ k, iterM (optStep N R lam solve q lr V) k s = .ok (tr k)) ∧
        (∀ k, gradnorm (tr k).2.G N = .ok (c k).1 ∧ Model.residual V (tr k).2.W N = .ok (c k).2) ∧
        cpdAls kind N R lam solve q lr V a clock fuel s = .ok r ∧
        AlsHist a (stepSweeps N kind) clock tr c r := by
  obtain ⟨o0, h0, h⟩ := opt_reach hfit hS hG lam solve q lr
  obtain ⟨s, hs, _⟩ := h k0
  choose T hT1 hT2 hT3 using h
  have htr : ∀ k, iterM (optStep N R lam solve q lr V) k s = .ok (T (k0 + k)) := by
    intro k
    have := hT1 (k0 + k)
    rw [iterM_add, hs] at this
    exact this
  have hg : ∀ k, ∃ g, gradnorm (T k).2.G N = .ok g := fun k => gradnorm_ok (hT3 k)
  have hr : ∀ k, ∃ g, Model.residual V (T k).2.W N = .ok g := fun k =>
    ⟨_, C16_residual (by have := hfit.lo; omega) hfit.hi (hT2 k)⟩
  choose g hg using hg
  choose d hd using hr
  have hc : ∀ k, cpdCheck N V (T (k0 + k)) = .ok (g (k0 + k), d (k0 + k)) := by
    intro k
    simp [cpdCheck, hg, hd, bind, Except.bind, pure, Except.pure]
  obtain ⟨r, r1, r2⟩ := als_ok (a := a) (clock := clock) (stepSweeps_pos hfit.lo kind) hres htr hc
    (fuel := fuel) (by rw [alsBound_kind hfit.lo]; exact hf)
  exact ⟨o0, s, h0, hs, _, _, r, htr, fun k => ⟨hg _, hd _⟩, r1, r2⟩

/-- **C18.** For every optimizer, problem it handles, `resprint ≠ 0`, history of the clock, and after any number `k0` of
earlier steps: `als` returns (no fault, no divergence) after at most `stepLimit` optimizer steps, and what it leaves
behind is the result of exactly that many steps; the sweep counter counts the steps it made. -/
theorem C18_als_terminates {kind : OptKind} {dims : Fin N → ℕ} (hfit : OptFits kind dims) {R : ℕ} {V : Tensor ℝ}
    {f : Fac ℝ} (hS : Shaped dims R V f.W) (hG : f.G.length = N) (lam : ℝ) (solve : Spec.Solver ℝ) (q : ℕ)
    (lr : Spec.LowRank ℝ) {a : AlsArgs} (hres : a.resprint ≠ 0) (clock : ℕ → ℝ) (k0 : ℕ) {fuel : ℕ}
    (hf : stepLimit N a.maxsweep kind < fuel) :
    ∃ o0 s r, optInit ℝ N kind = .ok o0 ∧ iterM (optStep N R lam solve q lr V) k0 (o0, f) = .ok s ∧
      cpdAls kind N R lam solve q lr V a clock fuel s = .ok r ∧
      r.iters ≤ stepLimit N a.maxsweep kind ∧
      iterM (optStep N R lam solve q lr V) r.iters s = .ok r.st ∧
      r.sweeps = r.iters * stepSweeps N kind := by
  obtain ⟨o0, s, h0, hs, tr, c, r, htr, _, hr, H⟩ := cpdAls_hist hfit hS hG lam solve q lr hres clock k0 hf
  exact ⟨o0, s, r, h0, hs, hr, by rw [← alsBound_kind hfit.lo]; exact H.bound, by rw [H.state]; exact htr _, H.sweeps⟩

/-- **C18 (fuel does not matter).** The result does not depend on the fuel: any two runs that both have more fuel than
`stepLimit` return the same. -/
theorem C18_fuel_irrelevant {kind : OptKind} {dims : Fin N → ℕ} (hfit : OptFits kind dims) {R : ℕ} {V : Tensor ℝ}
    {f : Fac ℝ} (hS : Shaped dims R V f.W) (hG : f.G.length = N) (lam : ℝ) (solve : Spec.Solver ℝ) (q : ℕ)
    (lr : Spec.LowRank ℝ) {a : AlsArgs} (hres : a.resprint ≠ 0) (clock : ℕ → ℝ) {o0 : OptState ℝ}
    (h0 : optInit ℝ N kind = .ok o0) {n m : ℕ} (hn : stepLimit N a.maxsweep kind < n) (hnm : n ≤ m) :
    cpdAls kind N R lam solve q lr V a clock m (o0, f) = cpdAls kind N R lam solve q lr V a clock n (o0, f) := by
  have mono : ∀ (n m : ℕ), n ≤ m → ∀ it sw st rows r,
      alsLoop a (optStep N R lam solve q lr V) (stepSweeps N kind) (cpdCheck N V) clock n it sw st rows = .ok r →
      alsLoop a (optStep N R lam solve q lr V) (stepSweeps N kind) (cpdCheck N V) clock m it sw st rows = .ok r := by
    intro n
    induction n with
    | zero => intro m _ it sw st rows r h; simp [alsLoop] at h
    | succ n ih =>
      intro m hm it sw st rows r h
      obtain ⟨m, rfl⟩ : ∃ m', m = m' + 1 := ⟨m - 1, by omega⟩
      unfold alsLoop at h ⊢
      by_cases h1 : ⌊sw⌋ ≤ a.maxsweep
      · rw [if_pos h1, if_neg hres] at h ⊢
        by_cases h2 : alsChecked a it sw
        · rw [if_pos h2] at h ⊢
          simp only [bind, Except.bind, pure, Except.pure] at h ⊢
          cases hc : cpdCheck N V st with
          | error e => rw [hc] at h; simp at h
          | ok c =>
            rw [hc] at h
            simp only at h ⊢
            by_cases h3 : c.1 < a.tol ∨ a.timelimit < clock it
            · rw [if_pos h3] at h ⊢; exact h
            · rw [if_neg h3] at h ⊢
              cases hst : optStep N R lam solve q lr V st with
              | error e => rw [hst] at h; simp at h
              | ok st' => rw [hst] at h; exact ih m (by omega) _ _ _ _ _ h
        · rw [if_neg h2] at h ⊢
          simp only [bind, Except.bind] at h ⊢
          cases hst : optStep N R lam solve q lr V st with
          | error e => rw [hst] at h; simp at h
          | ok st' => rw [hst] at h; exact ih m (by omega) _ _ _ _ _ h
      · rw [if_neg h1] at h ⊢; exact h
  obtain ⟨o0', s, r, h0', hs, hr, _⟩ := C18_als_terminates hfit hS hG lam solve q lr hres clock 0 hn
  rw [h0] at h0'
  cases h0'
  simp only [iterM] at hs
  cases hs
  rw [hr]
  exact mono n m hnm _ _ _ _ _ hr

/-- **C19 (plain and DT optimizers).** For a sweep limit of at least `-1`, the result is `false` exactly when the sweep
limit was reached. -/
theorem C19_result_simple_dt {kind : OptKind} (hk : kind = .simple ∨ kind = .dt ∨ kind = .dtlr) {dims : Fin N → ℕ}
    (hfit : OptFits kind dims) {R : ℕ} {V : Tensor ℝ}
    {f : Fac ℝ} (hS : Shaped dims R V f.W) (hG : f.G.length = N) (lam : ℝ) (solve : Spec.Solver ℝ) (q : ℕ)
    (lr : Spec.LowRank ℝ) {a : AlsArgs} (hres : a.resprint ≠ 0) (hm : -1 ≤ a.maxsweep) (clock : ℕ → ℝ) (k0 : ℕ)
    {fuel : ℕ} (hf : stepLimit N a.maxsweep kind < fuel) :
    ∃ o0 s r, optInit ℝ N kind = .ok o0 ∧ iterM (optStep N R lam solve q lr V) k0 (o0, f) = .ok s ∧
      cpdAls kind N R lam solve q lr V a clock fuel s = .ok r ∧
      (r.ret = false ↔ (a.maxsweep : ℚ) < ⌊r.sweeps⌋) := by
  obtain ⟨o0, s, h0, hs, tr, c, r, htr, _, hr, H⟩ := cpdAls_hist hfit hS hG lam solve q lr hres clock k0 hf
  refine ⟨o0, s, r, h0, hs, hr, ?_⟩
  have hpos := stepSweeps_pos hfit.lo kind
  rw [H.ret, decide_eq_false_iff_not, not_not]
  have hb := H.bound
  have hfl := floor_le_iff (m := a.maxsweep) hpos r.iters
  rw [← H.sweeps] at hfl
  have hB : (alsBound a.maxsweep (stepSweeps N kind) : ℚ) * stepSweeps N kind = a.maxsweep + 1 := by
    rw [alsBound_kind hfit.lo]
    rcases hk with rfl | rfl | rfl <;> simp only [stepLimit, stepSweeps]
    · have : (((a.maxsweep + 1).toNat : ℤ) : ℚ) = ((a.maxsweep + 1 : ℤ) : ℚ) := by rw [Int.toNat_of_nonneg (by omega)]
      push_cast at this ⊢
      linarith
    all_goals
      have : (((2 * (a.maxsweep + 1)).toNat : ℤ) : ℚ) = ((2 * (a.maxsweep + 1) : ℤ) : ℚ) := by
        rw [Int.toNat_of_nonneg (by omega)]
      push_cast at this ⊢
      linarith
  constructor
  · intro h
    rw [h]
    have : ((a.maxsweep : ℚ) + 1) = ((a.maxsweep + 1 : ℤ) : ℚ) := by push_cast; ring
    rw [this, Int.floor_intCast]
    push_cast
    linarith
  · intro h
    have h' : a.maxsweep < ⌊r.sweeps⌋ := by exact_mod_cast h
    have : ¬ r.iters < alsBound a.maxsweep (stepSweeps N kind) := fun hlt => by
      have := hfl.2 hlt
      omega
    rw [H.sweeps, show r.iters = alsBound a.maxsweep (stepSweeps N kind) by omega, hB]

/-- **C19 (multi-sweep optimizers; the property is violated).** With MSDT/MSDTLR the result is `false` exactly when the
sweep limit was reached *and* `N-1` divides `maxsweep+1`; in all other cases `als` answers `true` even if the sweep limit
stopped it. -/
theorem C19_result_msdt {kind : OptKind} (hk : kind = .msdt ∨ kind = .msdtlr) {dims : Fin N → ℕ}
    (hfit : OptFits kind dims) {R : ℕ} {V : Tensor ℝ}
    {f : Fac ℝ} (hS : Shaped dims R V f.W) (hG : f.G.length = N) (lam : ℝ) (solve : Spec.Solver ℝ) (q : ℕ)
    (lr : Spec.LowRank ℝ) {a : AlsArgs} (hres : a.resprint ≠ 0) (hm : -1 ≤ a.maxsweep) (clock : ℕ → ℝ) (k0 : ℕ)
    {fuel : ℕ} (hf : stepLimit N a.maxsweep kind < fuel) :
    ∃ o0 s r, optInit ℝ N kind = .ok o0 ∧ iterM (optStep N R lam solve q lr V) k0 (o0, f) = .ok s ∧
      cpdAls kind N R lam solve q lr V a clock fuel s = .ok r ∧
      (r.ret = false ↔ (a.maxsweep : ℚ) < ⌊r.sweeps⌋ ∧ ((N : ℤ) - 1) ∣ a.maxsweep + 1) := by
  obtain ⟨o0, s, h0, hs, tr, c, r, htr, _, hr, H⟩ := cpdAls_hist hfit hS hG lam solve q lr hres clock k0 hf
  refine ⟨o0, s, r, h0, hs, hr, ?_⟩
  have hN : (3 : ℚ) ≤ N := by exact_mod_cast hfit.lo
  have hpos := stepSweeps_pos hfit.lo kind
  rw [H.ret, decide_eq_false_iff_not, not_not]
  have hfl := floor_le_iff (m := a.maxsweep) hpos r.iters
  rw [← H.sweeps] at hfl
  have hinc : stepSweeps N kind = ((N : ℚ) - 1) / N := by rcases hk with rfl | rfl <;> rfl
  have hsw : r.sweeps * N = r.iters * (N - 1) := by
    rw [H.sweeps, hinc]
    field_simp
  have hcop : IsCoprime ((N : ℤ) - 1) N := ⟨-1, 1, by ring⟩
  constructor
  · intro h
    refine ⟨?_, ?_⟩
    · rw [h]
      have : ((a.maxsweep : ℚ) + 1) = ((a.maxsweep + 1 : ℤ) : ℚ) := by push_cast; ring
      rw [this, Int.floor_intCast]
      push_cast
      linarith
    · rw [h] at hsw
      have hz : (a.maxsweep + 1) * (N : ℤ) = r.iters * ((N : ℤ) - 1) := by exact_mod_cast hsw
      exact hcop.dvd_of_dvd_mul_right (Dvd.intro_left _ hz.symm)
  · rintro ⟨h, d, hd⟩
    have h' : a.maxsweep < ⌊r.sweeps⌋ := by exact_mod_cast h
    have hge : ¬ r.iters < alsBound a.maxsweep (stepSweeps N kind) := fun hlt => by
      have := hfl.2 hlt
      omega
    have hit : r.iters = alsBound a.maxsweep (stepSweeps N kind) := by
      have := H.bound
      omega
    have hd' : (a.maxsweep : ℚ) + 1 = ((N : ℚ) - 1) * d := by exact_mod_cast hd
    have hb : (alsBound a.maxsweep (stepSweeps N kind) : ℚ) = d * N := by
      have e : ((a.maxsweep : ℚ) + 1) / (((N : ℚ) - 1) / N) = ((d * N : ℤ) : ℚ) := by
        rw [hd']
        push_cast
        have : (N : ℚ) - 1 ≠ 0 := by linarith
        field_simp
      unfold alsBound
      rw [hinc, e, Nat.ceil_intCast]
      have hdn : 0 ≤ d * (N : ℤ) := by
        have h1 : 0 ≤ ((N : ℤ) - 1) * d := by rw [← hd]; omega
        have h2 : (0 : ℤ) < (N : ℤ) - 1 := by have := hfit.lo; omega
        have : 0 ≤ d := by
          by_contra hneg
          have := mul_neg_of_pos_of_neg h2 (not_le.1 hneg)
          omega
        positivity
      have : (((d * (N : ℤ)).toNat : ℤ) : ℚ) = ((d * (N : ℤ) : ℤ) : ℚ) := by rw [Int.toNat_of_nonneg hdn]
      push_cast at this ⊢
      exact this
    have hN0 : (N : ℚ) ≠ 0 := by linarith
    have : r.sweeps * N = ((a.maxsweep : ℚ) + 1) * N := by
      rw [hsw, hit, hb, hd']
      ring
    exact mul_right_cancel₀ hN0 this

/-- **C20.** For every optimizer, problem and history: if `als` stopped before the sweep limit, it did so at an iteration
at which it had just recomputed the gradient norm (the last row of the log) and the norm was below `tol` or the clock had
passed `timelimit`; and no earlier checked iteration had a gradient norm below `tol` or a clock past the limit. -/
theorem C20_stop_reason {kind : OptKind} {dims : Fin N → ℕ} (hfit : OptFits kind dims) {R : ℕ} {V : Tensor ℝ}
    {f : Fac ℝ} (hS : Shaped dims R V f.W) (hG : f.G.length = N) (lam : ℝ) (solve : Spec.Solver ℝ) (q : ℕ)
    (lr : Spec.LowRank ℝ) {a : AlsArgs} (hres : a.resprint ≠ 0) (clock : ℕ → ℝ) (k0 : ℕ) {fuel : ℕ}
    (hf : stepLimit N a.maxsweep kind < fuel) :
    ∃ o0 s r, optInit ℝ N kind = .ok o0 ∧ iterM (optStep N R lam solve q lr V) k0 (o0, f) = .ok s ∧
      cpdAls kind N R lam solve q lr V a clock fuel s = .ok r ∧
      (⌊r.sweeps⌋ ≤ a.maxsweep → ∃ g, gradnorm r.st.2.G N = .ok g ∧
        (∃ d, r.rows.getLast? = some ⟨r.iters, r.sweeps, g, d⟩) ∧ (g < a.tol ∨ a.timelimit < clock r.iters)) ∧
      ∀ row ∈ r.rows, row.iter < r.iters → a.tol ≤ row.gradnorm ∧ clock row.iter ≤ a.timelimit := by
  obtain ⟨o0, s, h0, hs, tr, c, r, htr, hc, hr, H⟩ := cpdAls_hist hfit hS hG lam solve q lr hres clock k0 hf
  refine ⟨o0, s, r, h0, hs, hr, ?_, ?_⟩
  · intro hle
    have hpos := stepSweeps_pos hfit.lo kind
    rw [H.sweeps, floor_le_iff hpos] at hle
    have hbr : r.broke = true := by
      by_contra hne
      have := H.atEnd (by simpa using hne)
      omega
    obtain ⟨_, hck, hst⟩ := H.atBreak hbr
    refine ⟨(c r.iters).1, by rw [H.state]; exact (hc _).1, ⟨(c r.iters).2, ?_⟩, hst⟩
    rw [H.rows, hbr, if_pos rfl, logRows_succ, if_pos hck, H.sweeps]
    simp
  · intro row hrow hlt
    rw [H.rows] at hrow
    unfold logRows at hrow
    simp only [List.mem_map, List.mem_filter, decide_eq_true_eq] at hrow
    obtain ⟨j, ⟨_, hck⟩, rfl⟩ := hrow
    have := H.before j hlt
    unfold Stops at this
    simp only [not_and_or, not_or, not_lt] at this
    rcases this with h | h
    · exact absurd hck h
    · exact h

/-- **C49.** The log: the iterations with a row are exactly those reached before the limit that are multiples of
`resprint`, the first, or past `maxsweep` sweeps; in order; and each row holds the gradient norm and the residual of the
state after that many steps. -/
theorem C49_log_rows {kind : OptKind} {dims : Fin N → ℕ} (hfit : OptFits kind dims) {R : ℕ} {V : Tensor ℝ}
    {f : Fac ℝ} (hS : Shaped dims R V f.W) (hG : f.G.length = N) (lam : ℝ) (solve : Spec.Solver ℝ) (q : ℕ)
    (lr : Spec.LowRank ℝ) {a : AlsArgs} (hres : a.resprint ≠ 0) (clock : ℕ → ℝ) (k0 : ℕ) {fuel : ℕ}
    (hf : stepLimit N a.maxsweep kind < fuel) :
    ∃ o0 s r, optInit ℝ N kind = .ok o0 ∧ iterM (optStep N R lam solve q lr V) k0 (o0, f) = .ok s ∧
      cpdAls kind N R lam solve q lr V a clock fuel s = .ok r ∧
      (∀ j, (∃ row ∈ r.rows, row.iter = j) ↔ j ≤ r.iters ∧ ⌊(j : ℚ) * stepSweeps N kind⌋ ≤ a.maxsweep ∧
        (a.resprint ∣ j ∨ j = 0 ∨ (a.maxsweep : ℚ) ≤ j * stepSweeps N kind)) ∧
      (r.rows.map AlsRow.iter).Pairwise (· < ·) ∧
      ∀ row ∈ r.rows, row.sweeps = row.iter * stepSweeps N kind ∧
        ∃ s', iterM (optStep N R lam solve q lr V) row.iter s = .ok s' ∧ gradnorm s'.2.G N = .ok row.gradnorm ∧
          Model.residual V s'.2.W N = .ok row.diffV := by
  obtain ⟨o0, s, h0, hs, tr, c, r, htr, hc, hr, H⟩ := cpdAls_hist hfit hS hG lam solve q lr hres clock k0 hf
  have hpos := stepSweeps_pos hfit.lo kind
  refine ⟨o0, s, r, h0, hs, hr, ?_, ?_, ?_⟩
  · intro j
    rw [H.rows]
    unfold logRows
    simp only [List.mem_map, List.mem_filter, decide_eq_true_eq, List.mem_range, floor_le_iff hpos]
    have hckd : alsChecked a j (j * stepSweeps N kind) ↔
        (a.resprint ∣ (j : ℤ) ∨ j = 0 ∨ (a.maxsweep : ℚ) ≤ j * stepSweeps N kind) := by
      unfold alsChecked
      rw [← Int.dvd_iff_tmod_eq_zero]
      constructor
      · rintro (h | h | h)
        · exact .inl h
        · exact .inr (.inr h)
        · right; left
          rcases mul_eq_zero.1 h with h | h
          · exact_mod_cast h
          · exact absurd h hpos.ne'
      · rintro (h | h | h)
        · exact .inl h
        · exact .inr (.inr (by simp [h]))
        · exact .inr (.inl h)
    rw [← hckd]
    have hb := H.bound
    constructor
    · rintro ⟨_, ⟨k, ⟨hk, hck⟩, rfl⟩, rfl⟩
      simp only
      by_cases hbr : r.broke = true
      · rw [if_pos hbr] at hk
        have := (H.atBreak hbr).1
        exact ⟨by omega, by omega, hck⟩
      · rw [if_neg hbr] at hk
        exact ⟨by omega, by omega, hck⟩
    · rintro ⟨h1, h2, h3⟩
      refine ⟨_, ⟨j, ⟨?_, h3⟩, rfl⟩, rfl⟩
      by_cases hbr : r.broke = true
      · rw [if_pos hbr]; omega
      · rw [if_neg hbr]
        have := H.atEnd (by simpa using hbr)
        omega
  · rw [H.rows]
    unfold logRows
    rw [List.map_map]
    exact List.Pairwise.map _ (fun a b h => h) (List.Pairwise.filter _ (List.pairwise_lt_range))
  · intro row hrow
    rw [H.rows] at hrow
    unfold logRows at hrow
    simp only [List.mem_map] at hrow
    obtain ⟨j, _, rfl⟩ := hrow
    exact ⟨rfl, tr j, htr j, (hc j).1, (hc j).2⟩

/-- **C21 (violated).** With `resprint = 0` every call of `als` that enters its loop has undefined behaviour (`iters % 0`),
in every state and for every optimizer. -/
theorem C21_resprint_zero (kind : OptKind) (R : ℕ) (lam : ℝ) (solve : Spec.Solver ℝ) (q : ℕ) (lr : Spec.LowRank ℝ)
    (V : Tensor ℝ) {a : AlsArgs} (h0 : a.resprint = 0) (hm : 0 ≤ a.maxsweep) (clock : ℕ → ℝ) (fuel : ℕ)
    (s : OptState ℝ × Fac ℝ) : cpdAls kind N R lam solve q lr V a clock (fuel + 1) s = .error .ub := by
  unfold cpdAls als alsLoop
  rw [if_pos (by simpa using hm), if_pos h0]

/-! Non-vacuity. -/

/-- Example arguments. -/
noncomputable def exArgs : AlsArgs := ⟨1 / 1000, 60, 6, 10⟩

theorem exFits : OptFits (N := 4) .msdt ![2, 3, 1, 4] := ⟨by norm_num, by norm_num, by simp⟩

/-- Non-zero update used by the examples. -/
noncomputable def exLRR : Spec.LowRank ℝ := fun _ _ M _ _ => (M, fun k => k + 2, fun k r => k + r + 1)

/-- A problem on which the result of MSDT is wrong: order 4, `maxsweep = 6`, so `3 ∤ 7`. -/
example := C18_als_terminates exFits exShapedR rfl 3 (fun _ _ M _ => M) 1 exLRR (a := exArgs) (by simp [exArgs])
  (fun k => k) 5 (Nat.lt_succ_self _)
example := C19_result_msdt (.inl rfl) exFits exShapedR rfl 3 (fun _ _ M _ => M) 1 exLRR (a := exArgs) (by simp [exArgs])
  (by simp [exArgs]) (fun k => k) 5 (Nat.lt_succ_self _)
example : ¬ ((4 : ℕ) : ℤ) - 1 ∣ exArgs.maxsweep + 1 := by simp [exArgs]
example := C49_log_rows exFits exShapedR rfl 3 (fun _ _ M _ => M) 1 exLRR (a := exArgs) (by simp [exArgs])
  (fun k => k) 5 (Nat.lt_succ_self _)

end Properties
