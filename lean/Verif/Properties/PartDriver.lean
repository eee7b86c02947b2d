import Verif.Proofs.PartDriver
import Verif.Properties.PPGuard

/-! # C56: the driver `alsCP_PP_partupdate` -/

namespace Properties

open Model Finset

variable {N : ℕ} {dims : Fin N → ℕ} {R : ℕ} {V : Tensor ℝ} {W G : List (Tensor ℝ)} {kn : Kern ℝ} {srt : List Rel → List ℕ}

/-- What holds when `alsCP_PP_partupdate` has returned. -/
structure PartExit (dims : Fin N → ℕ) (R : ℕ) (V : Tensor ℝ) (c : PPCfg) (r : PPRun PartPPState) (ret : Bool) : Prop where
  stop : r.grad ≤ c.tol ∨ c.maxiter < r.iter
  bound : (r.iter : ℤ) ≤ c.maxiter + 1 + (if c.bench = true then 1 else 0)
  capped : ∀ l, l <:+: r.trace → NoStart l → ppSweeps l ≤ 15
  value : ret = true ↔ (r.iter : ℤ) ≠ c.maxiter + 1
  converged : c.bench = false → ret = true → r.grad ≤ c.tol
  shape : Shaped dims R V r.st.cp.W

theorem part_exit {c : PPCfg} {clock : ℕ → ℝ} {r : PPRun PartPPState}
    (h : PPExit { c with tucker := false } clock (fun s : PartPPState => CPI dims R V s.cp) r) :
    PartExit dims R V c r (decide (¬ (r.iter : ℤ) = c.maxiter + 1)) := by
  have hstop : r.grad ≤ c.tol ∨ c.maxiter < r.iter := by
    have := h.stop
    simp only [not_and, not_le] at this
    by_cases hg : c.tol < r.grad
    · exact .inr (this hg)
    · exact .inl (not_lt.1 hg)
  refine ⟨hstop, h.bound, fun l hl hs => capped_spec (h.capped rfl) l hl hs, decide_eq_true_iff, fun hb ht => ?_, h.inv.W⟩
  rw [decide_eq_true_iff] at ht
  have := h.bound
  simp only [hb, Bool.false_eq_true, if_false] at this
  rcases hstop with h1 | h1
  · exact h1
  · omega

/-- **C56 (termination).** Orders 4, 6..9, kernels and `std::sort` satisfying their contracts, `update_percentage` in [0,1],
`resprint` nonzero, and a clock that never passes the limit: `alsCP_PP_partupdate` returns, with the exit conditions of
`alsCP_PP`, unless `std::sort` is called on values it is not defined for. -/
theorem C56_terminates (h4 : 4 ≤ N) (h5 : N ≠ 5) (h9 : N ≤ 9) (same : Bool) (lam ratio tolInit : ℝ) {p : ℝ} (hp0 : 0 ≤ p)
    (hp1 : p ≤ 1) (hk : KernOk kn) (hsrt : SortSpec srt) (hW : Shaped dims R V W) (hG : G.length = N) (c : PPCfg)
    (hm : 0 ≤ c.maxiter) (hr : c.resprint ≠ 0) (clock : ℕ → ℝ) (hclk : ∀ t, clock t ≤ c.timelimit) (fuel : ℕ)
    (hf : c.maxiter + 3 < fuel) :
    (∃ r ret, alsCPPart same N R lam ratio tolInit p kn srt V c clock fuel W G = .ok (r, ret) ∧ PartExit dims R V c r ret) ∨
      alsCPPart same N R lam ratio tolInit p kn srt V c clock fuel W G = .error .ub := by
  have hkk := part_hooks (dims := dims) (R := R) (V := V) h4 h5 h9 same lam ratio tolInit hp0 hp1 hk hsrt
  obtain ⟨r, r1, r2⟩ := ppDriverLoop_ok (c := { c with tucker := false }) hkk hr
    (fun s hs hc => cp_close (same := same) (lam := lam) (ratio := ratio) (tolInit := tolInit) (k := kn) hs hc) rfl (by rintro ⟨t, ht⟩; exact absurd ht (not_lt.2 (hclk t))) (clock := clock)
    (sub := fuel) fuel ⟨0, 10, 0, ⟨⟨W, G, W.map zerosLike, [], [], []⟩, [], [], []⟩, []⟩ (cp_start hW hG)
    (by simp only; split <;> omega) capped_nil (fun _ _ h => by simp only at h; omega) (by simp only; omega)
    (by simp only; omega)
  unfold alsCPPart ppDriver
  rcases ub_loop (c := { c with tucker := false }) (clock := clock) (part_ub (N := N) (V := V) same R lam ratio tolInit p kn srt)
    fuel fuel ⟨0, 10, 0, ⟨⟨W, G, W.map zerosLike, [], [], []⟩, [], [], []⟩, []⟩ with e | e
  · rw [e, r1]
    exact .inl ⟨r, _, rfl, part_exit r2⟩
  · rw [e]
    exact .inr rfl

/-- **C56 (any clock).** If it returns, the exit conditions hold. -/
theorem C56_exit (h4 : 4 ≤ N) (h5 : N ≠ 5) (h9 : N ≤ 9) (same : Bool) (lam ratio tolInit : ℝ) {p : ℝ} (hp0 : 0 ≤ p)
    (hp1 : p ≤ 1) (hk : KernOk kn) (hsrt : SortSpec srt) (hW : Shaped dims R V W) (hG : G.length = N) (c : PPCfg)
    (hm : 0 ≤ c.maxiter) (hr : c.resprint ≠ 0) (clock : ℕ → ℝ) (fuel : ℕ) (hf : c.maxiter + 3 < fuel)
    (r : PPRun PartPPState) (ret : Bool)
    (he : alsCPPart same N R lam ratio tolInit p kn srt V c clock fuel W G = .ok (r, ret)) : PartExit dims R V c r ret := by
  have hkk := part_hooks (dims := dims) (R := R) (V := V) h4 h5 h9 same lam ratio tolInit hp0 hp1 hk hsrt
  unfold alsCPPart ppDriver at he
  cases hl : ppDriverLoop { c with tucker := false } (partPPHooks same N R lam ratio tolInit p kn srt V) clock fuel fuel
    ⟨0, 10, 0, ⟨⟨W, G, W.map zerosLike, [], [], []⟩, [], [], []⟩, []⟩ with
  | error e => rw [hl] at he; cases he
  | ok r0 =>
    rw [hl] at he
    simp only [bind, Except.bind, pure, Except.pure, Except.ok.injEq, Prod.mk.injEq] at he
    obtain ⟨rfl, rfl⟩ := he
    rcases ub_loop (c := { c with tucker := false }) (clock := clock) (part_ub (N := N) (V := V) same R lam ratio tolInit p kn srt)
      fuel fuel ⟨0, 10, 0, ⟨⟨W, G, W.map zerosLike, [], [], []⟩, [], [], []⟩, []⟩ with e | e
    · rw [hl] at e
      exact part_exit (ppDriverLoop_exit (c := { c with tucker := false }) hkk hr
        (fun s hs hc => cp_close (same := same) (lam := lam) (ratio := ratio) (tolInit := tolInit) (k := kn) hs hc) fuel _ r0
        (cp_start hW hG) (by simp only; split <;> omega) (fun _ => capped_nil) (fun _ _ h => by simp only at h; omega)
        (by simp only; omega) e.symm)
    · rw [hl] at e
      cases e

/-- **C56 (violation: no return after the time limit).** As for `alsCP_PP`: outside `bench` mode, with the limit passed at the
first test and a gradient norm above `tol < 10`, it never returns. -/
theorem C56_livelock (h4 : 4 ≤ N) (h9 : N ≤ 9) (same : Bool) (lam ratio tolInit p : ℝ)
    (hW : Shaped dims R V W) (hG : G.length = N) (c : PPCfg) (hb : c.bench = false) (hm : 0 ≤ c.maxiter)
    (hr : c.resprint ≠ 0) (ht : c.tol < 10) (g : ℝ) (hg : gradnorm G N = .ok g) (hgt : c.tol < g) (clock : ℕ → ℝ)
    (hclk : ∀ t, c.timelimit < clock t) (fuel : ℕ) :
    alsCPPart same N R lam ratio tolInit p kn srt V c clock fuel W G = .error .diverge := by
  unfold alsCPPart ppDriver
  rw [ppDriverLoop_livelock (c := { c with tucker := false }) (k0 := 0) (i := 0)
    (J := fun s => CPI dims R V s.cp ∧ s.cp.G = G) hr hb
    (fun s h => ⟨{ s with cp := { s.cp with Wprev := s.cp.W.map zerosLike } }, rfl, ⟨h.1.W, h.1.G, h.1.dW⟩, h.2⟩) ?_ ?_ ?_
    (fun s h => h) (fun t _ => hclk t) ?_ hm fuel fuel _ ⟨cp_start hW hG, rfl⟩ rfl (Nat.zero_le _) ht]
  · rfl
  · intro s h
    obtain ⟨g', d, e1, e2⟩ := part_check (by omega) (by omega) h.1 (same := same) (lam := lam) (ratio := ratio)
      (tolInit := tolInit) (k := kn) (p := p) (srt := srt)
    rw [h.2, hg] at e1
    cases e1
    exact ⟨_, e2, h, hgt⟩
  · intro s h
    have hb := ratioTests_ok h.1.W h.1.dW fun a b => quotGt a b tolInit
    generalize List.map _ _ = l at hb
    refine ⟨l.any id, ?_, trivial⟩
    simp only [partPPHooks, cpPPHooks, hb, bind, Except.bind]
    rfl
  · intro s h
    obtain ⟨ops, o1, o2, o3⟩ := part_ppBegin (by omega) h9 same h.1 (lam := lam) (ratio := ratio) (tolInit := tolInit) (p := p)
      (k := kn) (srt := srt)
    exact ⟨_, o2, o3.cp.i, h.2⟩
  · unfold dtChecked
    simp

/-- **C56 (guard).** Outside `bench` mode, `tol_init >= 0`, any clock: as in C55, every PP sweep is made with the operators of
`W_init` and with `‖dW‖ <= tol_init ‖W‖` for every mode: the driver does the same as one in which other sweeps abort. -/
theorem C56_guard (h4 : 4 ≤ N) (h5 : N ≠ 5) (h9 : N ≤ 9) (same : Bool) (lam ratio tolInit : ℝ) (ht : 0 ≤ tolInit) {p : ℝ}
    (hp0 : 0 ≤ p) (hp1 : p ≤ 1) (hk : KernOk kn) (hsrt : SortSpec srt) (hW : Shaped dims R V W) (hG : G.length = N) (c : PPCfg)
    (hb : c.bench = false) (clock : ℕ → ℝ) (fuel : ℕ) :
    ppDriver { c with tucker := false } ((partPPHooks same N R lam ratio tolInit p kn srt V).guardSweep
        fun s => CPSafe dims R V same tolInit s.cp) clock fuel ⟨⟨W, G, W.map zerosLike, [], [], []⟩, [], [], []⟩ =
      alsCPPart same N R lam ratio tolInit p kn srt V c clock fuel W G := by
  have hkk := (part_hooks (dims := dims) (R := R) (V := V) h4 h5 h9 same lam ratio tolInit hp0 hp1 hk hsrt).keep
  have hu := part_ub (N := N) (V := V) same R lam ratio tolInit p kn srt
  refine ppDriver_guard (c := { c with tucker := false }) (h := partPPHooks same N R lam ratio tolInit p kn srt V)
    (I := fun s => CPI dims R V s.cp) (D := fun s => CPD dims R V s.cp)
    (Q := PartQ dims R V same) ⟨hkk.DI, hkk.QI, hkk.dtBegin, hkk.dtSweep, hkk.ppBegin, ?_, hkk.checkD, hkk.checkQ, hkk.acceptD,
      hkk.acceptQ, hkk.endRound⟩ ⟨?_, ?_, ?_⟩ hb ?_
    (st := ⟨⟨W, G, W.map zerosLike, [], [], []⟩, [], [], []⟩) (cp_start hW hG)
  · intro s hs s' e
    rcases hu.2 s with e' | e'
    · rw [e'] at e
      exact hkk.ppSweep s hs s' e
    · rw [e'] at e
      cases e
  · intro s hs hfar
    obtain ⟨g, d, _, e⟩ := part_check (by omega) (by omega) hs.cp.i (same := same) (lam := lam) (ratio := ratio)
      (tolInit := tolInit) (k := kn) (p := p) (srt := srt)
    exact Succ.ifOk ⟨_, e, hfar⟩
  · exact fun s hs hfar => Succ.ifOk ⟨s, rfl, hfar⟩
  · intro s hs
    obtain ⟨ops, o1, o2, o3⟩ := part_ppBegin (by omega) h9 same hs (lam := lam) (ratio := ratio) (tolInit := tolInit) (p := p)
      (k := kn) (srt := srt)
    refine Succ.ifOk ⟨_, o2, ?_⟩
    have := cp_far same lam ratio tolInit (k := kn) o3.cp.i
    rw [any_false_of] at this
    · exact this
    · intro b hb
      obtain ⟨j, rfl⟩ := (List.mem_ofFn' _ _).1 hb
      simp only [tfacNorm_zeros]
      exact quotGt_zero ht
  · intro s hs hfar
    refine ⟨hs.ops, fun j => ?_⟩
    have hfar' : (cpPPHooks same N R lam ratio tolInit kn V).ppFar s.cp = .ok false := hfar
    rw [cp_far same lam ratio tolInit (k := kn) hs.cp.i, Except.ok.injEq, List.any_eq_false] at hfar'
    have := hfar' _ ((List.mem_ofFn' _ _).2 ⟨j, rfl⟩)
    exact quotGt_false (Real.sqrt_nonneg _) (by simpa using this)

/-! ## The call of `std::sort` can be undefined -/

/-- A tensor of lengths 2, 1, 2, 1: the 2x2 identity in modes 0 and 2. -/
noncomputable def nanV : Tensor ℝ := ⟨[2, 1, 2, 1], fun idx => if idx[0]? = idx[2]? then 1 else 0⟩

/-- Factors of rank 1: (1/2, 1), 1, (1, 0), 1. -/
noncomputable def nanW : List (Tensor ℝ) :=
  [⟨[2, 1], fun idx => if idx = [0, 0] then 1 / 2 else 1⟩, ⟨[1, 1], fun _ => 1⟩,
   ⟨[2, 1], fun idx => if idx = [0, 0] then 1 else 0⟩, ⟨[1, 1], fun _ => 1⟩]

theorem nanShaped : Shaped (N := 4) ![2, 1, 2, 1] 1 nanV nanW where
  lensV := rfl
  count := rfl
  lensW := by
    intro j M h
    fin_cases j <;> (cases h; rfl)

theorem nan_box : Spec.Box (![2, 1, 2, 1] : Fin 4 → ℕ) = {![0, 0, 0, 0], ![0, 0, 1, 0], ![1, 0, 0, 0], ![1, 0, 1, 0]} := by
  ext f
  simp only [Spec.mem_Box, Fin.forall_fin_succ, mem_insert, mem_singleton, funext_iff]
  simp
  omega

theorem nan_mttkrp (v : (Fin 4 → ℕ) → ℝ) (W : Fin 4 → ℕ → ℕ → ℝ) (i : Fin 4) (x : ℕ) :
    Spec.mttkrp (![2, 1, 2, 1] : Fin 4 → ℕ) v W i x 0 =
      ∑ idx ∈ ({![0, 0, 0, 0], ![0, 0, 1, 0], ![1, 0, 0, 0], ![1, 0, 1, 0]} : Finset (Fin 4 → ℕ)),
        if idx i = x then v idx * ∏ j ∈ univ.erase i, W j (idx j) 0 else 0 := by
  unfold Spec.mttkrp
  rw [nan_box, sum_filter]

theorem nan_erase : (univ.erase 0 : Finset (Fin 4)) = {1, 2, 3} ∧ (univ.erase 1 : Finset (Fin 4)) = {0, 2, 3} ∧
    (univ.erase 2 : Finset (Fin 4)) = {0, 1, 3} := by decide

/-- One sweep of the example, updating mode 0 only: afterwards the priorities contain 0, NaN and infinity. -/
theorem nan_sweep {kn : Kern ℝ} (hk : KernOk kn) {srt : List Rel → List ℕ}
    (hs0 : srt (List.replicate 4 (some ((0 : ℝ) : WithTop ℝ))) = [0, 1, 2, 3]) {G dW : List (Tensor ℝ)} (hG : G.length = 4)
    (hdW : Shaped (N := 4) ![2, 1, 2, 1] 1 nanV dW) {ops : Cache ℝ}
    (ho : PPOps (N := 4) ![2, 1, 2, 1] 1 nanV nanW ops) :
    ∃ s', partSweep 4 1 1 1 (1 / 4) kn srt ops nanW (partInit 4 nanW G dW) = .ok s' ∧ ¬ StrictWeak s'.rel ∧
      PartShaped (N := 4) ![2, 1, 2, 1] 1 nanV s' := by
  have hsh := partInit_shape nanShaped hG hdW
  obtain ⟨e0, e1, e2⟩ := nan_erase
  have v00 : mats (N := 4) nanW 0 0 0 = (1 / 2 : ℝ) := by simp [mats, mat, nanW, Spec.clip, nrow, ncol]
  have v01 : mats (N := 4) nanW 0 1 0 = (1 : ℝ) := by simp [mats, mat, nanW, Spec.clip, nrow, ncol]
  have v1 : mats (N := 4) nanW 1 0 0 = (1 : ℝ) := by simp [mats, mat, nanW, Spec.clip, nrow, ncol]
  have v20 : mats (N := 4) nanW 2 0 0 = (1 : ℝ) := by simp [mats, mat, nanW, Spec.clip, nrow, ncol]
  have v21 : mats (N := 4) nanW 2 1 0 = (0 : ℝ) := by simp [mats, mat, nanW, Spec.clip, nrow, ncol]
  have v3 : mats (N := 4) nanW 3 0 0 = (1 : ℝ) := by simp [mats, mat, nanW, Spec.clip, nrow, ncol]
  have hV : ∀ a b c d : ℕ, arr nanV 4 ![a, b, c, d] = if a = c then (1 : ℝ) else 0 := by
    intro a b c d
    simp [arr, nanV]
  have hS : Spec.normalMat (![2, 1, 2, 1] : Fin 4 → ℕ) 1 (1 : ℝ) (mats nanW) 0 0 0 = 2 := by
    simp only [Spec.normalMat, Spec.clip, Spec.gramExcept, Spec.gram, e0]
    rw [prod_insert (by decide), prod_insert (by decide), prod_singleton]
    simp [sum_range_succ, v1, v20, v21, v3]
    norm_num
  obtain ⟨s1, a1, a2⟩ := partUpdate_ok (by omega) ho nanShaped hsh hk 0 (lam := 1) (ratio := 1)
    (tiny_posDef (by rw [show (partInit 4 nanW G dW).W = nanW from rfl, hS]; norm_num))
  have hz : ∀ j : Fin 4, ∀ x r, mats (partInit 4 nanW G dW).dM j x r = (0 : ℝ) := fun j x r => by
    rw [show (partInit 4 nanW G dW).dM = nanW.map zerosLike from rfl, tzeros_mats]
  have m0 : mats s1.M (0 : Fin 4) 0 0 = (1 : ℝ) := by
    rw [a2.rhs 0 (by norm_num) 0 (by norm_num), hz, nan_mttkrp]
    simp [hV, e0, v1, v20, v21, v3]
  have m1 : mats s1.M (0 : Fin 4) 1 0 = (0 : ℝ) := by
    rw [a2.rhs 1 (by norm_num) 0 (by norm_num), hz, nan_mttkrp]
    simp [hV, e0, v1, v20, v21, v3]
  obtain ⟨X, x1, x2⟩ := a2.solved
  rw [show (partInit 4 nanW G dW).W = nanW from rfl] at x1
  have d0 : mats s1.dW (0 : Fin 4) 0 0 = (0 : ℝ) := by
    have h1 := x1 0 (by norm_num) 0 (by norm_num)
    rw [sum_range_one, hS, m0] at h1
    rw [x2 0 (by norm_num) 0 (by norm_num), v00]
    linarith
  have d1 : mats s1.dW (0 : Fin 4) 1 0 = (-1 : ℝ) := by
    have h1 := x1 1 (by norm_num) 0 (by norm_num)
    rw [sum_range_one, hS, m1] at h1
    rw [x2 1 (by norm_num) 0 (by norm_num), v01]
    linarith
  have c1 : mats s1.dM (1 : Fin 4) 0 0 = (0 : ℝ) := by
    rw [a2.acc 1 (by decide) 0 (by norm_num) 0 (by norm_num), hz, nan_mttkrp]
    simp [hV, e1, v1, v20, v21, v3, d0, d1, Function.update]
  have c2 : mats s1.dM (2 : Fin 4) 1 0 = (-1 : ℝ) := by
    rw [a2.acc 2 (by decide) 1 (show 1 < 2 by norm_num) 0 (by norm_num), hz, nan_mttkrp]
    simp [hV, e2, v1, v20, v21, v3, d0, d1, Function.update]
  have k1 : mats s1.M (1 : Fin 4) 0 0 = (0 : ℝ) := by
    rw [mats_congr (a2.otherM 1 (by decide)), show (partInit 4 nanW G dW).M = nanW.map zerosLike from rfl, tzeros_mats]
  have k2 : ∀ x, mats s1.M (2 : Fin 4) x 0 = (0 : ℝ) := fun x => by
    rw [mats_congr (a2.otherM 2 (by decide)), show (partInit 4 nanW G dW).M = nanW.map zerosLike from rfl, tzeros_mats]
  obtain ⟨rel, r1, r2, r3⟩ := relatives_eq a2.shaped.dM a2.shaped.M
  obtain ⟨W', n1, n2⟩ := normalize_shape a2.shaped.W
  refine ⟨{ s1 with W := W', rel := rel }, ?_, ?_, n2, a2.shaped.G, a2.shaped.dW, a2.shaped.dM, a2.shaped.M, r2⟩
  · unfold partSweep
    have hrel : (partInit 4 nanW G dW).rel = List.replicate 4 (some ((0 : ℝ) : WithTop ℝ)) := rfl
    have hsort : sortIndexes srt (partInit 4 nanW G dW).rel = .ok [0, 1, 2, 3] := by
      unfold sortIndexes
      rw [if_pos (C32_sortable (by rw [hrel]; simp)), hrel, hs0]
    have htr : (truncR ((4 : ℕ) * (1 / 4))).toNat = 1 := by
      rw [show (((4 : ℕ) : ℝ) * (1 / 4)) = 1 by norm_num]
      simp [truncR]
    have hup : partUpdates 4 1 1 1 kn ops nanW [0, 1, 2, 3] (truncR ((4 : ℕ) * (1 / 4))) (partInit 4 nanW G dW) = .ok s1 := by
      unfold partUpdates
      rw [htr]
      have a1' : partUpdate 4 1 1 1 kn ops nanW (partInit 4 nanW G dW) 0 = .ok s1 := a1
      simp [List.range_succ, rd, bind, Except.bind, a1', pure, Except.pure]
    rw [hsort]
    simp only [bind, Except.bind]
    rw [hup]
    simp only
    rw [r1]
    simp only
    rw [n1]
    rfl
  · intro hw
    have f0 : relAt rel 0 = some ((0 : ℝ) : WithTop ℝ) := by
      have h := r3 0
      have hd : facNorm (![2, 1, 2, 1] : Fin 4 → ℕ) 1 s1.dM 0 = 0 := by
        unfold facNorm
        rw [Real.sqrt_eq_zero']
        refine le_of_eq (sum_eq_zero fun x hx => sum_eq_zero fun r hr => ?_)
        rw [a2.reset x (mem_range.1 hx) r (mem_range.1 hr)]
        norm_num
      have hm : facNorm (![2, 1, 2, 1] : Fin 4 → ℕ) 1 s1.M 0 ≠ 0 := by
        unfold facNorm
        simp [sum_range_succ, m0, m1]
      rw [show ((0 : Fin 4).1) = 0 from rfl] at h
      rw [h, hd]
      unfold relQuot
      rw [if_neg hm, zero_div]
    have f1 : relAt rel 1 = none := by
      have h := r3 1
      rw [show ((1 : Fin 4).1) = 1 from rfl] at h
      rw [h]
      unfold relQuot facNorm
      simp [sum_range_succ, c1, k1]
    have f2 : relAt rel 2 = some ⊤ := by
      have h := r3 2
      rw [show ((2 : Fin 4).1) = 2 from rfl] at h
      rw [h]
      unfold relQuot
      rw [if_pos, if_neg]
      · unfold facNorm
        rw [Real.sqrt_eq_zero']
        simp only [sum_range_succ, sum_range_zero, Matrix.cons_val, c2]
        have := sq_nonneg (mats (N := 4) s1.dM 2 0 0)
        nlinarith
      · unfold facNorm
        simp [k2]
    have mem : ∀ i < 4, relAt rel i ∈ rel := fun i hi => by
      simp [relAt, List.getD_eq_getElem?_getD, r2, hi]
    have g0 := mem 0 (by norm_num)
    have g1 := mem 1 (by norm_num)
    have g2 := mem 2 (by norm_num)
    rw [f0] at g0
    rw [f1] at g1
    rw [f2] at g2
    rcases hw _ g2 _ g1 _ g0 (by simp [relGt]) with h | h
    · simp [relGt] at h
    · simp [relGt] at h

theorem gradnorm_nonneg {G : List (Tensor ℝ)} {n : ℕ} {g : ℝ} (h : gradnorm G n = .ok g) : 0 ≤ g := by
  unfold gradnorm at h
  cases hs : (List.range n).foldlM (fun s (i : ℕ) => do
    let g ← rd G i
    pure (s + norm2 g * norm2 g)) (0 : ℝ) with
  | error e => rw [hs] at h; cases h
  | ok s =>
    rw [hs] at h
    rw [← Except.ok.inj h]
    exact Real.sqrt_nonneg _

/-- A test that does not stop leaves the data alone. -/
theorem part_test {same : Bool} {lam ratio tolInit p : ℝ} {kn : Kern ℝ} {srt : List Rel → List ℕ} (h2 : 2 ≤ N) (hN : N ≤ 18)
    {c : PPCfg} (ht : c.tol ≤ 0) (hr : c.resprint ≠ 0) {clock : ℕ → ℝ} (hclk : ∀ t, clock t ≤ c.timelimit)
    {pp : Bool} {checked : Prop} {r : PPRun PartPPState} (hI : CPI dims R V r.st.cp) :
    ∃ t, ppTest { c with tucker := false } (partPPHooks same N R lam ratio tolInit p kn srt V) clock pp checked r = .ok (t, false) ∧
      t.st = r.st ∧ t.iter = r.iter := by
  unfold ppTest
  rw [if_neg hr]
  by_cases hc : checked
  · obtain ⟨g, d, g1, g2⟩ := part_check h2 hN hI (same := same) (lam := lam) (ratio := ratio) (tolInit := tolInit) (k := kn)
      (p := p) (srt := srt)
    have g2' : (partPPHooks same N R lam ratio tolInit p kn srt V).check r.st = .ok (r.st, g, d) := g2
    rw [if_pos hc, g2']
    simp only [bind, Except.bind]
    rw [if_neg]
    · exact ⟨_, rfl, rfl, rfl⟩
    · simp only [not_or, not_lt]
      exact ⟨ht.trans (gradnorm_nonneg g1), hclk _, by simp⟩
  · rw [if_neg hc]
    exact ⟨_, rfl, rfl, rfl⟩

/-- **C56 (violation: undefined `std::sort`).** In `bench` mode with `update_percentage = 1/4` there are a tensor of order 4 and
factors such that, for all kernels and every stable `std::sort` satisfying their contracts, the second PP sweep sorts a list
containing a NaN beside two different numbers: the run is undefined. -/
theorem C56_sort_undefined {kn : Kern ℝ} (hk : KernOk kn) {srt : List Rel → List ℕ}
    (hs0 : srt (List.replicate 4 (some ((0 : ℝ) : WithTop ℝ))) = [0, 1, 2, 3]) {G : List (Tensor ℝ)} (hG : G.length = 4)
    (same : Bool) (tolInit : ℝ) (c : PPCfg) (hb : c.bench = true) (hm : 1 ≤ c.maxiter) (hr : c.resprint ≠ 0) (ht : c.tol ≤ 0)
    (clock : ℕ → ℝ) (hclk : ∀ t, clock t ≤ c.timelimit) (fuel : ℕ) (hf : 2 ≤ fuel) :
    alsCPPart same 4 1 1 1 tolInit (1 / 4) kn srt nanV c clock fuel nanW G = .error .ub := by
  obtain ⟨fuel, rfl⟩ : ∃ f, fuel = f + 2 := ⟨fuel - 2, by omega⟩
  obtain ⟨tk, tol, tl, mi, rp, b⟩ := c
  simp only at hb hm hr ht hclk
  subst hb
  have hI : CPI (N := 4) ![2, 1, 2, 1] 1 nanV (⟨⟨nanW, G, nanW.map zerosLike, [], [], []⟩, [], [], []⟩ : PartPPState).cp :=
    cp_start nanShaped hG
  obtain ⟨ops, o1, o2, o3⟩ := part_ppBegin (by norm_num) (by norm_num) same hI (lam := 1) (ratio := 1) (tolInit := tolInit)
    (p := 1 / 4) (k := kn) (srt := srt)
  have o2' : (partPPHooks same 4 1 1 1 tolInit (1 / 4) kn srt nanV).ppBegin _ = .ok _ := o2
  obtain ⟨s', p1, p2, p3⟩ := nan_sweep hk hs0 hG (zeros_shape (zeros_shape nanShaped)) o3.cp.ops
  simp only at p1
  unfold alsCPPart ppDriver ppDriverLoop
  rw [if_pos ⟨by simp only; linarith, by simp only; push_cast; omega⟩]
  simp only [if_true, bind, Except.bind]
  have hsub : ppSubLoop ⟨false, tol, tl, mi, rp, true⟩ (partPPHooks same 4 1 1 1 tolInit (1 / 4) kn srt nanV) clock 0 (fuel + 2)
      ⟨0, 10, 0, ⟨⟨nanW, G, nanW.map zerosLike, [], [], []⟩, [], [], []⟩, []⟩ = .error .ub := by
    unfold ppSubLoop
    rw [if_pos (by simp only; push_cast; omega)]
    simp only [if_true, bind, Except.bind]
    rw [if_neg (by simp)]
    unfold ppEnter
    rw [if_pos rfl, o2']
    simp only [bind, Except.bind, pure, Except.pure]
    obtain ⟨t, t1, t2, t3⟩ := part_test (N := 4) (dims := ![2, 1, 2, 1]) (R := 1) (V := nanV) (same := same) (lam := 1)
      (ratio := 1) (tolInit := tolInit) (p := 1 / 4) (kn := kn) (srt := srt) (by norm_num) (by norm_num) (c := ⟨tk, tol, tl, mi, rp, true⟩) ht hr
      hclk (pp := true) (checked := ppChecked ⟨false, tol, tl, mi, rp, true⟩ 0 0)
      (r := ⟨0, 10, 0, ⟨⟨nanW, G, (nanW.map zerosLike).map zerosLike, [], nanW, ops⟩, nanW.map zerosLike, nanW.map zerosLike,
          List.replicate 4 (some ((0 : ℝ) : WithTop ℝ))⟩, [] ++ [.ppStart]⟩) o3.cp.i
    rw [t1]
    simp only [Bool.false_eq_true, if_false]
    rw [t2]
    have hsw : (partPPHooks same 4 1 1 1 tolInit (1 / 4) kn srt nanV).ppSweep
        ⟨⟨nanW, G, (nanW.map zerosLike).map zerosLike, [], nanW, ops⟩, nanW.map zerosLike, nanW.map zerosLike,
          List.replicate 4 (some ((0 : ℝ) : WithTop ℝ))⟩ =
        .ok ⟨⟨s'.W, s'.G, s'.dW, [], nanW, ops⟩, s'.dM, s'.M, s'.rel⟩ := by
      simp only [partPPHooks]
      have p1' : partSweep 4 1 1 1 (1 / 4) kn srt ops nanW ⟨nanW, G, (nanW.map zerosLike).map zerosLike, nanW.map zerosLike,
        nanW.map zerosLike, List.replicate 4 (some ((0 : ℝ) : WithTop ℝ))⟩ = .ok s' := p1
      rw [p1']
      rfl
    rw [hsw]
    simp only
    unfold ppSubLoop
    rw [if_pos (by simp only [t3]; push_cast; omega)]
    simp only [if_true, bind, Except.bind, t3]
    rw [if_neg (by simp)]
    unfold ppEnter
    rw [if_neg (by simp)]
    simp only
    obtain ⟨u, u1, u2, u3⟩ := part_test (N := 4) (dims := ![2, 1, 2, 1]) (R := 1) (V := nanV) (same := same) (lam := 1)
      (ratio := 1) (tolInit := tolInit) (p := 1 / 4) (kn := kn) (srt := srt) (by norm_num) (by norm_num) (c := ⟨tk, tol, tl, mi, rp, true⟩) ht hr
      hclk (pp := true) (checked := ppChecked ⟨false, tol, tl, mi, rp, true⟩ 0 (0 + 1))
      (r := ⟨0 + 1, t.grad, t.tests, ⟨⟨s'.W, s'.G, s'.dW, [], nanW, ops⟩, s'.dM, s'.M, s'.rel⟩, t.trace ++ [.ppSweep]⟩)
      ⟨p3.W, p3.G, p3.dW⟩
    rw [u1]
    simp only [Bool.false_eq_true, if_false]
    rw [u2]
    have hsw2 : (partPPHooks same 4 1 1 1 tolInit (1 / 4) kn srt nanV).ppSweep
        ⟨⟨s'.W, s'.G, s'.dW, [], nanW, ops⟩, s'.dM, s'.M, s'.rel⟩ = .error .ub := by
      simp only [partPPHooks, partSweep, sortIndexes]
      rw [if_neg p2]
      rfl
    rw [hsw2]
  rw [hsub]

/-! Non-vacuity. -/

example : ∃ kn srt, ∀ G : List (Tensor ℝ), G.length = 4 →
    alsCPPart true 4 1 1 1 (1 / 10) (1 / 4) kn srt nanV ⟨false, 0, 60, 100, 10, true⟩ (fun _ => 1) 110 nanW G = .error .ub := by
  obtain ⟨kn, hk⟩ := exists_kernOk
  obtain ⟨srt, h1, h2⟩ := exists_sort_stable
  exact ⟨kn, srt, fun G hG => C56_sort_undefined hk (h2 4) hG true _ _ rfl (by norm_num) (by norm_num) le_rfl _
    (fun _ => by norm_num) _ (by norm_num)⟩

example : ∃ kn srt, (∃ r ret, alsCPPart true 4 2 (1 / 2) 1 (1 / 10) 1 kn srt exVR ⟨false, 1 / 1000, 60, 100, 10, false⟩ (fun _ => 1) 110
      exFacR.W exGR = .ok (r, ret) ∧ PartExit (N := 4) ![2, 3, 1, 4] 2 exVR ⟨false, 1 / 1000, 60, 100, 10, false⟩ r ret) ∨
    alsCPPart true 4 2 (1 / 2) 1 (1 / 10) 1 kn srt exVR ⟨false, 1 / 1000, 60, 100, 10, false⟩ (fun _ => 1) 110
      exFacR.W exGR = .error .ub := by
  obtain ⟨kn, hk⟩ := exists_kernOk
  obtain ⟨srt, h1, h2⟩ := exists_sort_stable
  exact ⟨kn, srt, C56_terminates (N := 4) (by norm_num) (by norm_num) (by norm_num) true (1 / 2) 1 (1 / 10) (by norm_num)
    (by norm_num) hk h1 exShapedR (G := exGR) rfl ⟨false, 1 / 1000, 60, 100, 10, false⟩ (by norm_num) (by norm_num) (fun _ => 1)
    (fun _ => by norm_num) 110 (by norm_num)⟩

end Properties
