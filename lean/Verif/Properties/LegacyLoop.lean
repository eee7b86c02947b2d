import Verif.Proofs.AlsCP
import Verif.Proofs.TuckLoop
import Verif.Properties.Legacy
import Verif.Properties.AlsLoop
import Verif.Properties.PPDriver

/-! # C48: iteration bound and result of `alsCP`, `alsCP_DT`, `alsTucker`, `alsTucker_DT`; C53: the core they return -/

namespace Properties

open Model Finset

variable {N : ℕ}

/-- The contract of the four loops: `iter` sweeps were done, at most `maxiter + 1`; the stop test was not met before; the
result is `true` exactly if it was met then, and `false` exactly if `maxiter + 1` sweeps were done. -/
structure FirstStop (stop : ℕ → Prop) (maxiter : ℤ) (iter : ℕ) (ret : Bool) : Prop where
  bound : (iter : ℤ) ≤ maxiter + 1
  before : ∀ j < iter, ¬ stop j
  yes : ret = true ↔ (iter : ℤ) ≤ maxiter ∧ stop iter
  no : ret = false ↔ (iter : ℤ) = maxiter + 1

theorem firstStop_of {σ : Type} {a : LLArgs} {h : LLHooks σ} {clock : ℕ → ℝ} {tr : ℕ → σ} {c : ℕ → σ × ℝ × ℝ} {r : LLEnd σ}
    (H : LLHist a h clock tr c r) (hm : 0 ≤ a.maxiter) {stop : ℕ → Prop}
    (hs : ∀ k, LLStop a h clock (fun k => (c k).2.1) k ↔ stop k) : FirstStop stop a.maxiter r.iter r.ret := by
  have hb := H.bound
  have hend : r.broke = false → (r.iter : ℤ) = a.maxiter + 1 := fun h => by have := (H.atEnd h).1; omega
  refine ⟨by omega, fun j hj => fun h => H.before j hj ((hs j).2 h), ?_, ?_⟩
  · rw [H.ret, decide_eq_true_iff]
    constructor
    · intro hne
      cases hbr : r.broke with
      | false => exact absurd (hend hbr) hne
      | true => obtain ⟨h1, h2, _⟩ := H.atBreak hbr; exact ⟨h1, (hs _).1 h2⟩
    · rintro ⟨h1, _⟩; omega
  · rw [H.ret, decide_eq_false_iff_not, not_not]

/-! ## `alsCP_DT` -/

section CPDT

variable {dims : Fin N → ℕ} {R : ℕ} {V : Tensor ℝ}

/-- **C48 (`alsCP_DT`).** Orders 4, 6..18, any shapes, solver, clock and `resprint ≠ 0`: the call returns; the factors left are
those after `iter` sweeps, `iter` being the first tested iteration (every `resprint`-th and `maxiter`) at which the gradient
matrices stored by the sweep before (for iteration 0: passed by the caller) have norm below `tol` or the time is up; `true`
is returned iff there is one.  The log has one line per test, with that norm and the true residual. -/
theorem C48_cp_dt (h4 : 4 ≤ N) (h5 : N ≠ 5) (hN : N ≤ 18) {F : List (Tensor ℝ)} (hF : Shaped dims R V F) {f : Fac ℝ}
    (hS : Shaped dims R V f.W) (hG : f.G.length = N) (lam : ℝ) (solve : Spec.Solver ℝ) {a : LLArgs} (hm : 0 ≤ a.maxiter)
    (hres : a.resprint ≠ 0) (clock : ℕ → ℝ) {fuel : ℕ} (hf : (a.maxiter + 1).toNat < fuel) :
    ∃ (r : LLEnd (Fac ℝ)) (tr : ℕ → Fac ℝ) (g : ℕ → ℝ), alsCPDT N R lam solve V F a clock fuel f = .ok r ∧
      (∀ k, iterM (legacySweep N R lam solve V F) k f = .ok (tr k)) ∧ r.st = tr r.iter ∧
      (∀ k, gradnorm (tr k).G N = .ok (g k)) ∧
      FirstStop (fun k => (Int.tmod (k : ℤ) a.resprint = 0 ∨ (k : ℤ) = a.maxiter) ∧
        (g k < a.tol ∨ a.timelimit < clock k)) a.maxiter r.iter r.ret ∧
      ∀ row, row ∈ r.rows ↔ ∃ k, (k ≤ r.iter ∧ (k : ℤ) ≤ a.maxiter) ∧ (Int.tmod (k : ℤ) a.resprint = 0 ∨ (k : ℤ) = a.maxiter) ∧
        row = (k, g k, Real.sqrt (∑ idx ∈ Spec.Box dims, (arr V N idx - Spec.recon R (mats (tr k).W) idx) ^ 2)) := by
  obtain ⟨tr, c, mid, H, hP⟩ := llTrace_exists (h := cpDTHooks N R lam solve V F a)
    (P := fun f : Fac ℝ => Shaped dims R V f.W ∧ f.G.length = N) ⟨hS, hG⟩ (by
      rintro s ⟨s1, s2⟩
      obtain ⟨g, hg⟩ := gradnorm_ok s2
      obtain ⟨d, hd⟩ : ∃ d, Model.residual V s.W N = .ok d := ⟨_, C16_residual (by omega) hN s1⟩
      refine ⟨(s, g, d), ?_, s, rfl, s1, s2⟩
      simp only [cpDTHooks, bind, Except.bind]
      rw [hg]
      simp only
      rw [hd]
      rfl) (by
      rintro s ⟨s1, s2⟩
      obtain ⟨s', a1, a2, a3⟩ := legacySweep_shape h4 h5 (by omega) hF s1 s2 lam solve
      exact ⟨s', a1, a2, a3⟩)
  have hc : ∀ k, ∃ g, gradnorm (tr k).G N = .ok g ∧ c k = (tr k, g,
      Real.sqrt (∑ idx ∈ Spec.Box dims, (arr V N idx - Spec.recon R (mats (tr k).W) idx) ^ 2)) := by
    intro k
    obtain ⟨g, hg⟩ := gradnorm_ok (hP k).1.2
    refine ⟨g, hg, ?_⟩
    have := H.check k
    simp only [cpDTHooks, bind, Except.bind] at this
    rw [hg] at this
    simp only at this
    rw [C16_residual (by omega) hN (hP k).1.1] at this
    exact (Except.ok.inj this).symm
  choose g g1 g2 using hc
  have hmid : ∀ k, mid k = tr k := by
    intro k
    by_cases hk : (cpDTHooks N R lam solve V F a).checked k
    · have := H.mid1 k hk
      rw [g2 k] at this
      exact (Except.ok.inj this).symm
    · exact H.mid2 k hk
  have htr : ∀ k, iterM (legacySweep N R lam solve V F) k f = .ok (tr k) := by
    intro k
    induction k with
    | zero => rw [H.start]; rfl
    | succ k ih =>
      rw [iterM_succ_right', ih]
      have := H.sweep k
      rw [hmid] at this
      exact this
  obtain ⟨r, r1, r2⟩ := llLoop_run (clock := clock) hres H hf
  have hfs := firstStop_of r2 hm (stop := fun k => (Int.tmod (k : ℤ) a.resprint = 0 ∨ (k : ℤ) = a.maxiter) ∧
        (g k < a.tol ∨ a.timelimit < clock k)) (by
      intro k
      simp only [LLStop, g2]
      rfl)
  refine ⟨r, tr, g, r1, htr, ?_, g1, hfs, ?_⟩
  · cases hbr : r.broke with
    | false => exact (r2.atEnd hbr).2
    | true => rw [(r2.atBreak hbr).2.2, g2]
  · intro row
    rw [r2.rows]
    have hlt : ∀ k, k < (if r.broke = true then r.iter + 1 else r.iter) ↔ k ≤ r.iter ∧ (k : ℤ) ≤ a.maxiter := by
      intro k
      cases hbr : r.broke with
      | false => have := (r2.atEnd hbr).1; simp only [Bool.false_eq_true, if_false]; omega
      | true => have := (r2.atBreak hbr).1; simp only [if_true]; omega
    unfold llRows
    simp only [List.mem_map, List.mem_filter, List.mem_range, hlt, decide_eq_true_eq]
    constructor
    · rintro ⟨k, ⟨h1, h2⟩, rfl⟩
      exact ⟨k, h1, h2, by rw [g2]⟩
    · rintro ⟨k, h1, h2, rfl⟩
      exact ⟨k, ⟨h1, h2⟩, by rw [g2]⟩

/-- **C48 (`alsCP_DT`, consequence).** The gradient test of iteration 0 reads the matrices the caller passed: with `grad_W = 0`
and `tol > 0` the call returns `true` at once and leaves the factors as they were, whatever the residual. -/
theorem C48_cp_dt_zero_gradient (h4 : 4 ≤ N) (h5 : N ≠ 5) (hN : N ≤ 18) {F : List (Tensor ℝ)} (hF : Shaped dims R V F) {f : Fac ℝ}
    (hS : Shaped dims R V f.W) (hG : Shaped dims R V f.G) (h0 : ∀ j : Fin N, ∀ x < dims j, ∀ r < R, mats f.G j x r = 0)
    (lam : ℝ) (solve : Spec.Solver ℝ) {a : LLArgs} (hm : 0 ≤ a.maxiter) (ht : 0 < a.tol) (hres : a.resprint ≠ 0)
    (clock : ℕ → ℝ) {fuel : ℕ} (hf : (a.maxiter + 1).toNat < fuel) :
    ∃ r, alsCPDT N R lam solve V F a clock fuel f = .ok r ∧ r.iter = 0 ∧ r.ret = true ∧ r.st = f := by
  obtain ⟨r, tr, g, r1, htr, hst, hg, hfs, _⟩ := C48_cp_dt h4 h5 hN hF hS hG.count lam solve hm hres clock hf
  have ht0 : tr 0 = f := by
    have := htr 0
    simp only [iterM] at this
    cases this; rfl
  have hg0 : g 0 = 0 := by
    have h1 := hg 0
    rw [ht0, C16_gradnorm (dims := dims) (R := R) (fun j => hG.get j)] at h1
    rw [← Except.ok.inj h1]
    rw [Real.sqrt_eq_zero']
    apply le_of_eq
    refine sum_eq_zero fun j _ => sum_eq_zero fun x hx => sum_eq_zero fun y hy => ?_
    rw [h0 j x (mem_range.1 hx) y (mem_range.1 hy)]
    simp
  have hi : r.iter = 0 := by
    by_contra hne
    exact hfs.before 0 (by omega) ⟨.inl (by simp), .inl (by rw [hg0]; exact ht)⟩
  refine ⟨r, r1, hi, hfs.yes.2 ⟨by omega, ?_⟩, by rw [hst, hi, ht0]⟩
  rw [hi]
  exact ⟨.inl (by simp), .inl (by rw [hg0]; exact ht)⟩

end CPDT

/-! ## `alsCP` -/

section CP

variable {s R : ℕ} {V : Tensor ℝ} {W F G : List (Tensor ℝ)}

/-- The norm of gradient minus correction that `alsCP` compares with `tol`. -/
noncomputable def projNorm (N s R : ℕ) (V : Tensor ℝ) (F W : List (Tensor ℝ)) : ℝ :=
  Real.sqrt (∑ i : Fin N, ∑ x ∈ range s, ∑ r ∈ range R,
    (Spec.alsGrad (fun _ : Fin N => s) R 0 (arr V N) (mats W) i x r - mats F i x r) ^ 2)

open Classical in
/-- **C48 (`alsCP`, sweep).** On equal mode lengths, order 2..10: a sweep with right-hand sides MTTKRP plus `F`, followed by
`Normalize` exactly if all `F` are zero. -/
theorem C48_cp_sweep (h2 : 2 ≤ N) (hN : N ≤ 10) (hS : Shaped (fun _ : Fin N => s) R V W)
    (hF : Shaped (fun _ : Fin N => s) R V F) (solve : Spec.Solver ℝ) (G' : List (Tensor ℝ)) (n0 : ℝ)
    (hn : fNorm N F = .ok n0) :
    ∃ W1 W2, mats W1 = (sweepPlus (fun _ : Fin N => s) R 0 solve (arr V N) (mats F) ⟨mats W, fun _ _ _ => 0⟩).W ∧
      Shaped (fun _ : Fin N => s) R V W1 ∧
      (if ∀ i : Fin N, ∀ x < s, ∀ r < R, mats F i x r = 0 then normalize W1 N = .ok W2 else W2 = W1) ∧
      Shaped (fun _ : Fin N => s) R V W2 ∧ alsCPSweep N R solve V F ⟨W, G', n0⟩ = .ok ⟨W2, G', n0⟩ := by
  obtain ⟨W1, w1, w2, w3⟩ := alsCPUpdates_ok h2 hN hS hF solve (fun _ _ _ => 0)
  rw [fNorm_ok hF.count] at hn
  cases hn
  have hz := fNorm_zero_iff hF
  by_cases h0 : ∀ i : Fin N, ∀ x < s, ∀ r < R, mats F i x r = 0
  · obtain ⟨W2, n1, n2⟩ := normalize_shape w2
    refine ⟨W1, W2, w3, w2, by rw [if_pos h0]; exact n1, n2, ?_⟩
    unfold alsCPSweep
    simp only [bind, Except.bind]
    rw [w1]
    simp only [hz.2 h0, if_true]
    rw [n1]
    rfl
  · refine ⟨W1, W1, w3, w2, by rw [if_neg h0], w2, ?_⟩
    unfold alsCPSweep
    simp only [bind, Except.bind]
    rw [w1]
    simp only [if_neg (fun h => h0 (hz.1 h))]
    rfl

/-- **C48 (`alsCP`).** Equal mode lengths, order 2..10, any solver, correction terms and clock: the call returns; the factors
left are those after `iter` sweeps, `iter` being the first iteration that is a multiple of 100 or `maxiter` and at which the
exact gradient minus `F` has norm below `tol` or the time is up; `true` is returned iff there is one. -/
theorem C48_cp (h2 : 2 ≤ N) (hN : N ≤ 10) (hS : Shaped (fun _ : Fin N => s) R V W)
    (hF : Shaped (fun _ : Fin N => s) R V F) (hG : G.length = N) (solve : Spec.Solver ℝ) (tol timelimit : ℝ) {maxiter : ℤ}
    (hm : 0 ≤ maxiter) (clock : ℕ → ℝ) {fuel : ℕ} (hf : (maxiter + 1).toNat < fuel) :
    ∃ (r : LLEnd CPState) (n0 : ℝ) (Ws : ℕ → List (Tensor ℝ)), fNorm N F = .ok n0 ∧
      alsCP N R solve V F tol timelimit maxiter clock fuel W G = .ok r ∧ Ws 0 = W ∧
      (∀ k, ∃ G', alsCPSweep N R solve V F ⟨Ws k, G', n0⟩ = .ok ⟨Ws (k + 1), G', n0⟩) ∧ r.st.W = Ws r.iter ∧
      (∀ k, Shaped (fun _ : Fin N => s) R V (Ws k)) ∧
      FirstStop (fun k => (k % 100 = 0 ∨ (k : ℤ) = maxiter) ∧
        (projNorm N s R V F (Ws k) < tol ∨ timelimit < clock k)) maxiter r.iter r.ret := by
  have hn := fNorm_ok hF.count
  set n0 := ∑ i ∈ range N, norm2 (F.getD i ⟨[], fun _ => 0⟩) with hn0
  obtain ⟨tr, c, mid, H, hP⟩ := llTrace_exists (h := cpHooks N R solve V F maxiter) (st := ⟨W, G, 0⟩)
    (P := fun t : CPState => Shaped (fun _ : Fin N => s) R V t.W ∧ t.G.length = N) ⟨hS, hG⟩ (by
      rintro ⟨W, G, n⟩ ⟨s1, s2⟩
      obtain ⟨G', g1, g2, _⟩ := alsCPCheck_ok h2 hN s1 hF s2 n
      exact ⟨_, g1, _, rfl, s1, g2⟩) (by
      rintro ⟨W, G, n⟩ ⟨s1, s2⟩
      obtain ⟨W1, w1, w2, w3⟩ := alsCPUpdates_ok h2 hN s1 hF solve (fun _ _ _ => 0)
      by_cases h0 : n = 0
      · obtain ⟨W2, n1, n2⟩ := normalize_shape w2
        refine ⟨⟨W2, G, n⟩, ?_, n2, s2⟩
        simp only [cpHooks, alsCPSweep, bind, Except.bind]
        rw [w1]
        simp only [h0, if_true]
        rw [n1]
        rfl
      · refine ⟨⟨W1, G, n⟩, ?_, w2, s2⟩
        simp only [cpHooks, alsCPSweep, bind, Except.bind]
        rw [w1]
        simp only [if_neg h0]
        rfl)
  have hc : ∀ k, ∃ G', c k = (⟨(tr k).W, G', n0⟩, projNorm N s R V F (tr k).W, 0) := by
    intro k
    obtain ⟨G', g1, _⟩ := alsCPCheck_ok h2 hN (hP k).1.1 hF (hP k).1.2 (tr k).Fnorm
    refine ⟨G', ?_⟩
    have := H.check k
    simp only [cpHooks] at this
    rw [show tr k = ⟨(tr k).W, (tr k).G, (tr k).Fnorm⟩ from rfl, g1] at this
    exact (Except.ok.inj this).symm
  choose Gs hGs using hc
  have hsw : ∀ k, (mid k).Fnorm = n0 →
      alsCPSweep N R solve V F ⟨(mid k).W, (mid k).G, n0⟩ = .ok ⟨(tr (k + 1)).W, (mid k).G, n0⟩ ∧ (tr (k + 1)).Fnorm = n0 := by
    intro k hk
    obtain ⟨W1, W2, _, _, _, _, e⟩ := C48_cp_sweep h2 hN (W := (mid k).W) (hP k).2.1 hF solve (mid k).G n0 hn
    have h := H.sweep k
    simp only [cpHooks] at h
    rw [show mid k = ⟨(mid k).W, (mid k).G, n0⟩ by rw [← hk], e] at h
    rw [e]
    simp only [Except.ok.injEq] at h
    rw [← h]
    exact ⟨rfl, rfl⟩
  have hmW : ∀ k, (mid k).W = (tr k).W := by
    intro k
    by_cases hk : (cpHooks N R solve V F maxiter).checked k
    · have := H.mid1 k hk
      rw [hGs] at this
      rw [← Except.ok.inj this]
    · rw [H.mid2 k hk]
  have hmid : ∀ k, (mid k).Fnorm = n0 := by
    intro k
    by_cases hk : (cpHooks N R solve V F maxiter).checked k
    · have := H.mid1 k hk
      rw [hGs] at this
      rw [← Except.ok.inj this]
    · induction k with
      | zero => exact absurd (.inl rfl) hk
      | succ k ih =>
        rw [H.mid2 _ hk]
        by_cases hk' : (cpHooks N R solve V F maxiter).checked k
        · have := H.mid1 k hk'
          rw [hGs] at this
          refine (hsw k ?_).2
          rw [← Except.ok.inj this]
        · exact (hsw k (ih hk')).2
  obtain ⟨r, r1, r2⟩ := llLoop_run (clock := clock) (a := ⟨tol, timelimit, maxiter, 100⟩) (by norm_num) H hf
  have hfs := firstStop_of r2 hm (stop := fun k => (k % 100 = 0 ∨ (k : ℤ) = maxiter) ∧
        (projNorm N s R V F (tr k).W < tol ∨ timelimit < clock k)) (by
      intro k
      simp only [LLStop, hGs]
      rfl)
  refine ⟨r, n0, fun k => (tr k).W, hn, r1, by beta_reduce; rw [H.start], ?_, ?_, fun k => (hP k).1.1, hfs⟩
  · intro k
    refine ⟨(mid k).G, ?_⟩
    beta_reduce
    rw [← hmW k]
    exact (hsw k (hmid k)).1
  · cases hbr : r.broke with
    | false => rw [(r2.atEnd hbr).2]
    | true => rw [(r2.atBreak hbr).2.2, hGs]

end CP

end Properties
