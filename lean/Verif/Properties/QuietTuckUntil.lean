import Verif.Properties.QuietTuck

/-! # C91: `alsTucker_PP` until its first PP sweep -/

namespace Model

open Properties

variable {N : ℕ} {dims rk : Fin N → ℕ} {V : Tensor ℝ}

theorem diffs_nil (h : 1 ≤ N) (W : List (Tensor ℝ)) (d : List (Tensor ℝ)) : diffs N W [] ≠ .ok d := by
  obtain ⟨n, rfl⟩ : ∃ n, N = n + 1 := ⟨N - 1, by omega⟩
  intro e
  unfold diffs at e
  rw [List.range_succ_eq_map, List.mapM_cons] at e
  obtain ⟨a, a1, _⟩ := bind_ok e
  obtain ⟨b, _, a1⟩ := bind_ok a1
  obtain ⟨c, c1, _⟩ := bind_ok a1
  simp [rd] at c1

/-- As long as no PP sweep was made, the factors span the HOOI subspaces. -/
def AsHooi (dims rk : Fin N → ℕ) (V : Tensor ℝ) (P : ℕ → Fin N → ℕ → ℕ → ℝ) (s : TuckPPState) (tr : List PPEv) : Prop :=
  ppSweeps tr = 0 → TuckShaped dims rk V s.W ∧ s.core.lens = List.ofFn rk ∧ (s.Wprev = [] ∨ TuckShaped dims rk V s.Wprev) ∧
    SpanResult dims rk V s.W (P (dtSweeps tr))

theorem asHooi_skip {P : ℕ → Fin N → ℕ → ℕ → ℝ} {s : TuckPPState} {tr : List PPEv} {e : PPEv}
    (h1 : ppSweeps [e] = 0) (h2 : dtSweeps [e] = 0) (h : AsHooi dims rk V P s tr) : AsHooi dims rk V P s (tr ++ [e]) := by
  intro h0
  rw [ppSweeps_append, h1] at h0
  rw [dtSweeps_append, h2]
  exact h h0

theorem tuck_asHooi (h4 : 4 ≤ N) (h5 : N ≠ 5) (h9 : N ≤ 9) (hr : ∀ j, rk j ≤ dims j) {k : Kern ℝ} (hk : SvdShape k) (hl : SvdLeading k)
    {P : ℕ → Fin N → ℕ → ℕ → ℝ} (hP : ∀ n, Spec.SpanSweep dims rk (arr V N) (P n) (P (n + 1))) :
    KeepsHist (tuckPPHooks N k V) (AsHooi dims rk V P) where
  dtBegin s s' tr h e := by
    rw [← Except.ok.inj e]
    refine asHooi_skip rfl rfl fun h0 => ?_
    obtain ⟨a1, a2, _, a4⟩ := h h0
    exact ⟨a1, a2, .inr (tzeros_shape a1), a4⟩
  dtSweep s s' tr h e h0 := by
    rw [ppSweeps_append] at h0
    obtain ⟨a1, a2, a3, a4⟩ := h (by omega)
    obtain ⟨q, q1, e⟩ := bind_ok e
    obtain ⟨d, d1, e⟩ := bind_ok e
    rcases a3 with a3 | a3
    · rw [a3] at d1
      exact absurd d1 (diffs_nil (by omega) _ _)
    · have e' : klens dims rk ∅ = rk := by funext j; simp [klens]
      obtain ⟨Y', D, b1, b2, b3, _, ⟨b4, b5⟩, _⟩ := tuckSweepDTsub_ok h4 h5 (by omega) hr a3 a1 hk hl
      rw [e'] at b4
      rw [a2, b1] at q1
      have := Except.ok.inj q1
      subst this
      rw [← Except.ok.inj e]
      refine ⟨b2, b4, .inr b2, ?_⟩
      rw [dtSweeps_append, show dtSweeps [PPEv.dtSweep] = 1 from rfl]
      exact .of (b3.span hr (hP _) a4.spans)
  ppBegin s s' tr h e := by
    obtain ⟨ops, _, e⟩ := bind_ok e
    rw [← Except.ok.inj e]
    exact asHooi_skip (e := .ppStart) rfl rfl h
  ppSweep s s' tr h e h0 := by
    rw [ppSweeps_append, show ppSweeps [PPEv.ppSweep] = 1 from rfl] at h0
    omega
  check s s' g d i b tr h e := by
    refine asHooi_skip rfl rfl fun h0 => ?_
    obtain ⟨a1, a2, a3, a4⟩ := h h0
    obtain ⟨C, c1, c2, c3⟩ := C38_check (by omega) (by omega) a1 s.core s.corePrev
    simp only [tuckPPHooks, c1, bind, Except.bind, pure, Except.pure, Except.ok.injEq, Prod.mk.injEq] at e
    rw [← e.1]
    exact ⟨a1, c2, a3, a4⟩
  accept s s' tr h e := by
    obtain ⟨t, _, e⟩ := bind_ok e
    rw [← Except.ok.inj e]
    exact h
  endRound s tr h := by
    simp only [tuckPPHooks]
    split <;> exact h

end Model

namespace Properties

open Model

variable {N : ℕ} {dims rk : Fin N → ℕ} {V : Tensor ℝ} {W : List (Tensor ℝ)}

/-- **C91 (`alsTucker_PP` until the first PP sweep).** Orders 4, 6..9, any tolerances, clock and `bench`.  Let `P 0, P 1, …` be the HOOI iterates
as subspaces (each leading eigenvalue larger than the first one left out).  If `alsTucker_PP` returns and has made no PP sweep, its factors
are bases of the subspaces `P n`, `n` the number of sweeps it has made with the dimension tree: setting up operators, tests and restarts
have no effect. -/
theorem C91_tucker_until (h4 : 4 ≤ N) (h5 : N ≠ 5) (h9 : N ≤ 9) (hr : ∀ j, rk j ≤ dims j) (hS : TuckShaped dims rk V W) {core : Tensor ℝ}
    (hcore : core.lens = List.ofFn rk) {k : Kern ℝ} (hk : SvdShape k) (hl : SvdLeading k) {P : ℕ → Fin N → ℕ → ℕ → ℝ}
    (h0 : Spec.Spans dims rk (mats W) (P 0)) (hP : ∀ n, Spec.SpanSweep dims rk (arr V N) (P n) (P (n + 1))) (tolInit : ℝ) (c : PPCfg)
    (clock : ℕ → ℝ) (fuel : ℕ) {r : PPRun TuckPPState} {ret : Bool} (h : alsTuckerPP N k V tolInit c clock fuel core W = .ok (r, ret))
    (hq : ppSweeps r.trace = 0) : SpanResult dims rk V r.st.W (P (dtSweeps r.trace)) :=
  (ppDriver_hist (tuck_asHooi h4 h5 h9 hr hk hl hP) h (fun _ => ⟨hS, hcore, .inl rfl, .of h0⟩) hq).2.2.2

/-- The corner tensor of C76. -/
example : ∃ (k : Kern ℝ) (r : PPRun TuckPPState) (ret : Bool), SvdLeading k ∧
    alsTuckerPP 4 k exCornV 0 ⟨true, 1 / 1000, 60, 7, 10, false⟩ (fun _ => 0) 9 ⟨[1, 1, 1, 1], fun _ => 0⟩ exCornW = .ok (r, ret) ∧
    SpanResult (fun _ : Fin 4 => 2) (fun _ => 1) exCornV r.st.W exCornP := by
  obtain ⟨k, hl, hk⟩ := exists_svdLeading
  obtain ⟨r, e, a, b, c, _, _, _, d, _⟩ := C91_tucker_off (N := 4) (by norm_num) (by norm_num) (by norm_num) (fun _ => by norm_num) exCornShaped
    (core := ⟨[1, 1, 1, 1], fun _ => 0⟩) (by simp [List.ofFn_succ]) hk hl hk hl (P := fun _ => exCornP)
    exCornSpans le_rfl ⟨true, 1 / 1000, 60, 7, 10, false⟩ rfl (by norm_num) (fun _ _ => exCornSweep) (by norm_num) (by norm_num)
    (clock := fun _ => 0) (clock' := fun _ => 0) (tl := 60) (fun _ => by norm_num) (fun _ => by norm_num) (fuel := 9) (fuel' := 9)
    (by norm_num) (by norm_num)
  exact ⟨k, r, _, hl, a, C91_tucker_until (N := 4) (by norm_num) (by norm_num) (by norm_num) (fun _ => by norm_num) exCornShaped
    (core := ⟨[1, 1, 1, 1], fun _ => 0⟩) (by simp [List.ofFn_succ]) hk hl (P := fun _ => exCornP) exCornSpans (fun _ => exCornSweep) 0 _ _ _ a d⟩

end Properties
