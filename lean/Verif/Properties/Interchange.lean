import Verif.Properties.Converge
import Verif.Properties.Symmetry
import Verif.Properties.TuckLoop
import Verif.Proofs.SymLegacy
import Verif.Properties.WorkLegacy

/-! # C90: the exact optimizers are interchangeable

`CPSimpleOptimizer`, `CPDTOptimizer` and `CPMSDTOptimizer` are three ways to do the same sweeps: with test intervals of the same
number of sweeps, `CPD::als` gives the same answer. -/

namespace Properties

open Model Finset

variable {N : ℕ} {dims : Fin N → ℕ} {R : ℕ} {lam : ℝ} {solve : Spec.Solver ℝ} {V : Tensor ℝ} {f : Fac ℝ}

theorem finRange_dropLast_last (h : 0 < N) : (List.finRange N).dropLast ++ [⟨N - 1, by omega⟩] = List.finRange N := by
  have hne : List.finRange N ≠ [] := by
    intro e
    have := congrArg List.length e
    simp at this
    omega
  conv_rhs => rw [← List.dropLast_append_getLast hne]
  congr 2
  rw [List.getLast_eq_getElem]
  apply Fin.ext
  simp

/-- The state of an exact optimizer after `p` steps that count for `h` sweeps is the state after `h` sweeps. -/
theorem aligned {kind : OptKind} (hk : kind = .simple ∨ kind = .dt ∨ kind = .msdt) (hN : 0 < N)
    {st : ℕ → Spec.AlsState N ℝ} (tr : Spec.AlsTrace dims R lam solve (arr V N) st (optModes kind N hN)) {p h : ℕ}
    (hp : (p : ℚ) * stepSweeps N kind = h) : st p = (Spec.alsSweep dims R lam solve (arr V N))^[h] (st 0) := by
  rcases hk with rfl | rfl | rfl
  · simp only [stepSweeps, mul_one] at hp
    obtain rfl : p = h := by exact_mod_cast hp
    induction p with
    | zero => rfl
    | succ p ih =>
      rw [tr.step, ih (by simp), Function.iterate_succ_apply']
      rfl
  · simp only [stepSweeps] at hp
    obtain rfl : p = 2 * h := by
      have : (p : ℚ) = ((2 * h : ℕ) : ℚ) := by push_cast; linarith
      exact_mod_cast this
    clear hp
    induction h with
    | zero => rfl
    | succ h ih =>
      rw [show 2 * (h + 1) = 2 * h + 1 + 1 by ring, tr.step, tr.step, ih, Function.iterate_succ_apply', ← Spec.alsRun_append]
      unfold optModes
      simp only [show 2 * h % 2 = 0 by omega, show (2 * h + 1) % 2 = 1 by omega, if_true, one_ne_zero, if_false]
      rw [finRange_dropLast_last hN]
      rfl
  · have hN1 : (1 : ℚ) ≤ N := by exact_mod_cast hN
    have hp' : p * (N - 1) = h * N := by
      simp only [stepSweeps] at hp
      have : ((p * (N - 1) : ℕ) : ℚ) = ((h * N : ℕ) : ℚ) := by
        rw [Nat.cast_mul, Nat.cast_sub hN]
        push_cast
        rw [← hp]
        field_simp
      exact_mod_cast this
    have key : ∀ p, st p = Spec.alsRun dims R lam solve (arr V N) (Spec.cyclicModes N hN (p * (N - 1))) (st 0) := by
      intro p
      induction p with
      | zero => simp [Spec.cyclicModes, Spec.alsRun]
      | succ p ih =>
        rw [tr.step, ih, ← Spec.alsRun_append]
        congr 1
        unfold optModes Spec.cyclicModes
        rw [Nat.add_mul, one_mul, List.range_add, List.map_append, List.map_map]
        rfl
    rw [key, hp', cyclicModes_mul hN]

section Rows

variable {a : AlsArgs} {inc : ℚ}

theorem filter_dvd_range {p : ℕ} (hp : 0 < p) (T : ℕ) :
    (List.range (p * T + 1)).filter (fun j => decide (p ∣ j)) = (List.range (T + 1)).map (p * ·) := by
  induction T with
  | zero => simp
  | succ T ih =>
    have : p * (T + 1) + 1 = p * T + 1 + p := by ring
    rw [this, List.range_add, List.filter_append, ih, List.range_succ (n := T + 1), List.map_append]
    congr 1
    obtain ⟨m, rfl⟩ : ∃ m, p = m + 1 := ⟨p - 1, by omega⟩
    rw [List.range_succ, List.map_append, List.filter_append]
    have h1 : ((List.range m).map (fun x => (m + 1) * T + 1 + x)).filter (fun j => decide ((m + 1) ∣ j)) = [] := by
      rw [List.filter_eq_nil_iff]
      intro j hj
      obtain ⟨x, hx, rfl⟩ := List.mem_map.1 hj
      have hx := List.mem_range.1 hx
      simp only [decide_eq_true_eq]
      rw [add_assoc, Nat.dvd_add_right (Dvd.intro _ rfl)]
      intro hd
      have := Nat.le_of_dvd (by omega) hd
      omega
    rw [h1]
    simp only [List.map_cons, List.map_nil, List.nil_append]
    rw [show (m + 1) * T + 1 + m = (m + 1) * (T + 1) by ring]
    simp

variable {p h : ℕ} {c : ℕ → ℝ × ℝ} {clock : ℕ → ℝ}

/-- Until the sweep limit only the multiples of the test interval are tested. -/
theorem checked_multiple (hp : a.resprint = p) (hinc : 0 < inc) (hph : (p : ℚ) * inc = h) {j : ℕ} (hc : alsChecked a j (j * inc))
    (hj : (j : ℚ) * inc < a.maxsweep ∨ (j : ℚ) * inc = a.maxsweep ∧ (h : ℤ) ∣ a.maxsweep) : ∃ t, j = p * t := by
  have hd : (p : ℤ) ∣ (j : ℤ) → ∃ t, j = p * t := fun hd => Int.natCast_dvd_natCast.1 hd
  rcases hj with hj | ⟨hj, m, hm⟩
  · rcases hc with hc | hc | hc
    · rw [hp] at hc
      exact hd ((Int.dvd_iff_tmod_eq_zero).2 hc)
    · exact absurd hc (not_le.2 hj)
    · rcases mul_eq_zero.1 hc with h0 | h0
      · exact ⟨0, by rw [mul_zero]; exact_mod_cast h0⟩
      · exact absurd h0 hinc.ne'
  · rw [hm] at hj
    push_cast at hj
    rw [← hph, mul_right_comm] at hj
    have := mul_right_cancel₀ hinc.ne' hj
    exact hd ⟨m, by exact_mod_cast this⟩

theorem checked_mul (hp : a.resprint = p) (t : ℕ) (sw : ℚ) : alsChecked a (p * t) sw := by
  left
  rw [hp, ← Int.dvd_iff_tmod_eq_zero]
  exact ⟨t, by push_cast; rfl⟩

/-- The log up to test `T`. -/
theorem logRows_multiple (hp : a.resprint = p) (hp0 : 0 < p) (hinc : 0 < inc) (hph : (p : ℚ) * inc = h) {T : ℕ}
    (hT : ((T * h : ℕ) : ℚ) ≤ a.maxsweep) :
    (logRows a inc c (p * T + 1)).map (fun r => (r.sweeps, r.gradnorm, r.diffV)) =
      (List.range (T + 1)).map fun t => (((t * h : ℕ) : ℚ), (c (p * t)).1, (c (p * t)).2) := by
  classical
  have hf : (List.range (p * T + 1)).filter (fun j => decide (alsChecked a j (j * inc))) =
      (List.range (p * T + 1)).filter (fun j => decide (p ∣ j)) := by
    refine List.filter_congr fun j hj => ?_
    have hj := List.mem_range.1 hj
    refine decide_eq_decide.2 ⟨fun hc => ?_, ?_⟩
    · have hle : (j : ℚ) * inc ≤ ((T * h : ℕ) : ℚ) := by
        have h1 : (j : ℚ) ≤ ((p * T : ℕ) : ℚ) := by exact_mod_cast (by omega : j ≤ p * T)
        have h2 := mul_le_mul_of_nonneg_right h1 hinc.le
        push_cast at h2 ⊢
        rw [mul_right_comm, hph] at h2
        linarith
      by_cases hlt : (j : ℚ) * inc < a.maxsweep
      · obtain ⟨t, rfl⟩ := checked_multiple hp hinc hph hc (.inl hlt)
        exact Dvd.intro _ rfl
      · have e1 : (j : ℚ) * inc = ((T * h : ℕ) : ℚ) := le_antisymm hle (hT.trans (not_lt.1 hlt))
        have e2 : (j : ℚ) * inc = (p * T : ℚ) * inc := by rw [e1, mul_right_comm, hph]; push_cast; ring
        have := mul_right_cancel₀ hinc.ne' e2
        exact ⟨T, by exact_mod_cast this⟩
    · rintro ⟨t, rfl⟩
      exact checked_mul hp t _
  unfold logRows
  rw [hf, filter_dvd_range hp0, List.map_map, List.map_map]
  refine List.map_congr_left fun t _ => ?_
  simp only [Function.comp]
  refine Prod.ext ?_ rfl
  simp only
  push_cast
  rw [mul_right_comm, hph, mul_comm]

end Rows

/-- **C90.** Two of the optimizers plain, DT, MSDT; test intervals of the same number `h` of sweeps; the same tolerance and sweep
limit; the time limit is passed at the same tests.  If a call of `als` with the first stops at a test before the sweep limit (or at
it, `h` dividing it), the call with the second stops there as well, after the same number of sweeps, with the same return value, the
same log and the same factors.  If both use up their sweeps exactly, they return `false` and the factors are the same. -/
theorem C90_interchangeable {k1 k2 : OptKind} (hk1 : k1 = .simple ∨ k1 = .dt ∨ k1 = .msdt) (hk2 : k2 = .simple ∨ k2 = .dt ∨ k2 = .msdt)
    (hfit1 : OptFits k1 dims) (hfit2 : OptFits k2 dims) (hS : Shaped dims R V f.W) (hG : Shaped dims R V f.G) (lam : ℝ)
    (solve : Spec.Solver ℝ) (q : ℕ) (lr : Spec.LowRank ℝ) {tol timelimit1 timelimit2 : ℝ} {maxsweep : ℤ} {p1 p2 h : ℕ} (hh : 0 < h)
    (h1 : (p1 : ℚ) * stepSweeps N k1 = h) (h2 : (p2 : ℚ) * stepSweeps N k2 = h) {clock1 clock2 : ℕ → ℝ}
    (hclock : ∀ t, timelimit1 < clock1 (p1 * t) ↔ timelimit2 < clock2 (p2 * t)) {fuel1 fuel2 : ℕ}
    (hf1 : stepLimit N maxsweep k1 < fuel1) (hf2 : stepLimit N maxsweep k2 < fuel2) :
    ∃ o1 o2 r1 r2, optInit ℝ N k1 = .ok o1 ∧ optInit ℝ N k2 = .ok o2 ∧
      cpdAls k1 N R lam solve q lr V ⟨tol, timelimit1, maxsweep, p1⟩ clock1 fuel1 (o1, f) = .ok r1 ∧
      cpdAls k2 N R lam solve q lr V ⟨tol, timelimit2, maxsweep, p2⟩ clock2 fuel2 (o2, f) = .ok r2 ∧
      (r1.broke = true → r1.sweeps < maxsweep ∨ r1.sweeps = maxsweep ∧ (h : ℤ) ∣ maxsweep →
        r2.broke = true ∧ r2.sweeps = r1.sweeps ∧ r1.ret = true ∧ r2.ret = true ∧
        r2.rows.map (fun r => (r.sweeps, r.gradnorm, r.diffV)) = r1.rows.map (fun r => (r.sweeps, r.gradnorm, r.diffV)) ∧
        facs N r2.st.2 = facs N r1.st.2) ∧
      (r1.sweeps = maxsweep + 1 → r2.sweeps = maxsweep + 1 →
        r1.ret = false ∧ r2.ret = false ∧ facs N r2.st.2 = facs N r1.st.2) := by
  have h3 := hfit1.lo
  have i1 := stepSweeps_pos h3 k1
  have i2 := stepSweeps_pos h3 k2
  have hh' : (0 : ℚ) < h := by exact_mod_cast hh
  have hp1 : 0 < p1 := by
    rcases Nat.eq_zero_or_pos p1 with rfl | hp
    · rw [Nat.cast_zero, zero_mul] at h1; exact absurd h1 hh'.ne
    · exact hp
  have hp2 : 0 < p2 := by
    rcases Nat.eq_zero_or_pos p2 with rfl | hp
    · rw [Nat.cast_zero, zero_mul] at h2; exact absurd h2 hh'.ne
    · exact hp
  obtain ⟨o1, T1, e1, a1, b1, tr1⟩ := opt_trace_modes hk1 hfit1 hS hG lam solve q lr
  obtain ⟨o2, T2, e2, a2, b2, tr2⟩ := opt_trace_modes hk2 hfit2 hS hG lam solve q lr
  have z1 : (T1 0).2 = f := by rw [← Except.ok.inj (a1 0)]
  have z2 : (T2 0).2 = f := by rw [← Except.ok.inj (a2 0)]
  have al : ∀ {m1 m2 t : ℕ}, (m1 : ℚ) * stepSweeps N k1 = t → (m2 : ℚ) * stepSweeps N k2 = t →
      facs N (T2 m2).2 = facs N (T1 m1).2 := by
    intro m1 m2 t g1 g2
    have w1 := aligned hk1 (by omega) tr1 g1
    have w2 := aligned hk2 (by omega) tr2 g2
    simp only [z1] at w1
    simp only [z2] at w2
    rw [w1, w2]
  have alt : ∀ t, facs N (T2 (p2 * t)).2 = facs N (T1 (p1 * t)).2 := fun t =>
    al (t := h * t) (by push_cast; rw [mul_right_comm, h1]) (by push_cast; rw [mul_right_comm, h2])
  obtain ⟨o1', s1, u1, v1, w1, c1, r1, hw1, hc1, hr1, H1⟩ := cpdAls_hist (a := ⟨tol, timelimit1, maxsweep, p1⟩) hfit1 hS hG.count lam
    solve q lr (by simp only; omega) clock1 0 hf1
  obtain ⟨o2', s2, u2, v2, w2, c2, r2, hw2, hc2, hr2, H2⟩ := cpdAls_hist (a := ⟨tol, timelimit2, maxsweep, p2⟩) hfit2 hS hG.count lam
    solve q lr (by simp only; omega) clock2 0 hf2
  rw [e1] at u1; cases u1
  rw [e2] at u2; cases u2
  cases v1; cases v2
  have ew1 : ∀ t, w1 t = T1 t := fun t => Except.ok.inj ((hw1 t).symm.trans (a1 t))
  have ew2 : ∀ t, w2 t = T2 t := fun t => Except.ok.inj ((hw2 t).symm.trans (a2 t))
  have ec : ∀ t, c2 (p2 * t) = c1 (p1 * t) := by
    intro t
    have eW : mats (N := N) (T2 (p2 * t)).2.W = mats (T1 (p1 * t)).2.W := congrArg Spec.AlsState.W (alt t)
    have eG : mats (N := N) (T2 (p2 * t)).2.G = mats (T1 (p1 * t)).2.G := congrArg Spec.AlsState.G (alt t)
    have g1 := hc1 (p1 * t)
    have g2 := hc2 (p2 * t)
    rw [ew1, C16_gradnorm (dims := dims) (R := R) (fun j => (b1 (p1 * t)).2.get j), C16_residual (by omega) hfit1.hi (b1 (p1 * t)).1]
      at g1
    rw [ew2, C16_gradnorm (dims := dims) (R := R) (fun j => (b2 (p2 * t)).2.get j), C16_residual (by omega) hfit1.hi (b2 (p2 * t)).1,
      eW] at g2
    simp only [eG] at g2
    exact Prod.ext (Except.ok.inj (g2.1.symm.trans g1.1)) (Except.ok.inj (g2.2.symm.trans g1.2))
  have hstop : ∀ t, Stops ⟨tol, timelimit1, maxsweep, p1⟩ (stepSweeps N k1) clock1 (p1 * t) (c1 (p1 * t)).1 ↔
      Stops ⟨tol, timelimit2, maxsweep, p2⟩ (stepSweeps N k2) clock2 (p2 * t) (c2 (p2 * t)).1 := by
    intro t
    unfold Stops
    simp only [checked_mul (a := ⟨tol, timelimit1, maxsweep, p1⟩) rfl, checked_mul (a := ⟨tol, timelimit2, maxsweep, p2⟩) rfl, true_and,
      ec, hclock]
  refine ⟨o1, o2, r1, r2, e1, e2, hr1, hr2, ?_, ?_⟩
  · intro hbr hlt
    have hs1 := H1.sweeps
    obtain ⟨hb1, st1⟩ := H1.atBreak hbr
    obtain ⟨T, hT⟩ := checked_multiple (a := ⟨tol, timelimit1, maxsweep, p1⟩) rfl i1 h1 st1.1 (by rw [← hs1]; exact hlt)
    have hsw : r1.sweeps = ((T * h : ℕ) : ℚ) := by rw [hs1, hT]; push_cast; rw [mul_right_comm, h1, mul_comm]
    have hle : ((T * h : ℕ) : ℚ) ≤ maxsweep := by
      rw [← hsw]
      rcases hlt with h | h
      · exact h.le
      · exact h.1.le
    have st2 := (hstop T).1 (by rw [← hT]; exact st1)
    have hsw2 : ((p2 * T : ℕ) : ℚ) * stepSweeps N k2 = ((T * h : ℕ) : ℚ) := by push_cast; rw [mul_right_comm, h2, mul_comm]
    have hb2 : p2 * T < alsBound maxsweep (stepSweeps N k2) := by
      rw [← floor_le_iff i2, hsw2, Int.floor_natCast]
      exact_mod_cast hle
    have hbr2 : r2.broke = true := by
      by_contra hn
      have := H2.atEnd (by simpa using hn)
      exact H2.before _ (by simp only at this; omega) st2
    obtain ⟨_, st2'⟩ := H2.atBreak hbr2
    have hj : r2.iters ≤ p2 * T := by
      by_contra hn
      exact H2.before _ (by omega) st2
    have hjs : (r2.iters : ℚ) * stepSweeps N k2 ≤ ((T * h : ℕ) : ℚ) := by
      rw [← hsw2]
      exact mul_le_mul_of_nonneg_right (by exact_mod_cast hj) i2.le
    obtain ⟨T', hT'⟩ : ∃ T', r2.iters = p2 * T' := by
      rcases lt_or_eq_of_le hj with hj | hj
      · refine checked_multiple (a := ⟨tol, timelimit2, maxsweep, p2⟩) rfl i2 h2 st2'.1 (.inl ?_)
        refine lt_of_lt_of_le ?_ hle
        rw [← hsw2]
        exact mul_lt_mul_of_pos_right (by exact_mod_cast hj) i2
      · exact ⟨T, hj⟩
    have hTT : T' = T := by
      have h4 : T' ≤ T := Nat.le_of_mul_le_mul_left (by rw [← hT']; exact hj) hp2
      rcases lt_or_eq_of_le h4 with h5 | h5
      · refine absurd ((hstop T').2 (by rw [← hT']; exact st2')) (H1.before _ ?_)
        rw [hT]
        exact Nat.mul_lt_mul_of_pos_left h5 hp1
      · exact h5
    subst hTT
    have hs2 : r2.sweeps = r1.sweeps := by rw [H2.sweeps, hT', hsw2, hsw]
    have hne : ¬ r1.sweeps = (maxsweep : ℚ) + 1 := by rw [hsw]; intro e; rw [e] at hle; linarith
    refine ⟨hbr2, hs2, ?_, ?_, ?_, ?_⟩
    · rw [H1.ret]; simpa using hne
    · rw [H2.ret, hs2]; simpa using hne
    · rw [H1.rows, H2.rows, if_pos hbr, if_pos hbr2, hT, hT',
        logRows_multiple (a := ⟨tol, timelimit1, maxsweep, p1⟩) rfl hp1 i1 h1 hle,
        logRows_multiple (a := ⟨tol, timelimit2, maxsweep, p2⟩) rfl hp2 i2 h2 hle]
      simp only [ec]
    · rw [H1.state, H2.state, ew1, ew2, hT, hT']
      exact alt _
  · intro g1 g2
    have hs1 := H1.sweeps
    have hs2 := H2.sweeps
    have hm : (0 : ℚ) ≤ (maxsweep : ℚ) + 1 := by rw [← g1, hs1]; positivity
    obtain ⟨m, hm'⟩ : ∃ m : ℕ, (m : ℤ) = maxsweep + 1 := ⟨(maxsweep + 1).toNat, Int.toNat_of_nonneg (by exact_mod_cast hm)⟩
    have hm2 : (m : ℚ) = (maxsweep : ℚ) + 1 := by exact_mod_cast hm'
    refine ⟨by rw [H1.ret]; simpa using g1, by rw [H2.ret]; simpa using g2, ?_⟩
    rw [H1.state, H2.state, ew1, ew2]
    exact al (t := m) (by rw [← hs1, g1, hm2]) (by rw [← hs2, g2, hm2])

/-! ## The legacy drivers -/

theorem normalize_zero_off {W W' : List (Tensor ℝ)} (hS : Shaped dims R V W) (h : Model.normalize W N = .ok W') (j : Fin N) {x r : ℕ}
    (hx : ¬ (x < dims j ∧ r < R)) : mats W' j x r = 0 := by
  obtain ⟨W0, h1, _, h3⟩ := normalize_eq (N := N) (W := W) (T := fun j => W.getD j ⟨[], fun _ => 0⟩) (fun j hj => by
    rw [List.getD_eq_getElem?_getD, List.getElem?_eq_getElem (by rw [hS.count]; omega)]
    rfl)
  obtain rfl : W0 = W' := Except.ok.inj (h1.symm.trans h)
  obtain ⟨M0, m1, m2⟩ := hS.get j
  have g : W.getD j.1 ⟨[], fun _ => 0⟩ = M0 := by simp [List.getD_eq_getElem?_getD, m1]
  have := h3 j.1 j.2
  simp only [g] at this
  unfold mats
  rw [this]
  simp only [mat, scaleT, m2]
  rw [if_neg (fun hf => hx (fits_two.1 hf))]

theorem normalize_congr {W W' : List (Tensor ℝ)} (hS : Shaped dims R V W) (hS' : Shaped dims R V W')
    (e : mats (N := N) W = mats W') :
    ∃ X X', Model.normalize W N = .ok X ∧ Model.normalize W' N = .ok X' ∧ Shaped dims R V X ∧ Shaped dims R V X' ∧
      mats (N := N) X = mats X' := by
  have hok : (colCoord (N := N) (Equiv.refl ℕ) (fun _ _ => 1) 1).Ok dims dims R :=
    colCoord_ok (fun _ => Iff.rfl) one_ne_zero (fun r _ => by simp)
  obtain ⟨X, X', h1, h2, h3⟩ := Moved.normalize (k := colCoord (Equiv.refl ℕ) (fun _ _ => 1) 1) (n := dims) (m := dims) (R := R) (V := V)
    (V' := V) (W := W) (W' := W') ⟨hS, hS', fun j x hx r _ => by rw [colCoord_fac _ j hx, ← e]; simp⟩ hok (fun _ _ _ => by simp [colCoord])
  refine ⟨X, X', h1, h2, h3.old, h3.new, ?_⟩
  funext j x r
  by_cases hx : x < dims j ∧ r < R
  · rw [h3.eq j x hx.1 r hx.2, colCoord_fac _ j hx.1]
    simp
  · rw [normalize_zero_off hS h1 j hx, normalize_zero_off hS' h2 j hx]

/-- **C90 (`alsCP` and `alsCP_DT`).** Equal mode lengths, orders 4 and 6..10, `F = 0`, no regularisation, the same solver: both
drivers pass through the same factors; in particular, calls that do the same number of sweeps leave the same factors. -/
theorem C90_legacy_cp (h4 : 4 ≤ N) (h5 : N ≠ 5) (hN : N ≤ 10) {s : ℕ} {F W G : List (Tensor ℝ)}
    (hS : Shaped (fun _ : Fin N => s) R V W) (hG : G.length = N) (hF : Shaped (fun _ : Fin N => s) R V F)
    (hF0 : ∀ i x r, mats (N := N) F i x r = 0) (solve : Spec.Solver ℝ) (tol timelimit : ℝ) {maxiter : ℤ} (hm : 0 ≤ maxiter)
    (clock : ℕ → ℝ) {fuel : ℕ} (hf : (maxiter + 1).toNat < fuel) {a : LLArgs} (ha : 0 ≤ a.maxiter) (hres : a.resprint ≠ 0)
    (clock' : ℕ → ℝ) {fuel' : ℕ} (hf' : (a.maxiter + 1).toNat < fuel') :
    ∃ (r : LLEnd CPState) (r' : LLEnd (Fac ℝ)) (tr : ℕ → Fac ℝ), alsCP N R solve V F tol timelimit maxiter clock fuel W G = .ok r ∧
      alsCPDT N R 0 solve V F a clock' fuel' ⟨W, G⟩ = .ok r' ∧
      (∀ k, iterM (legacySweep N R 0 solve V F) k ⟨W, G⟩ = .ok (tr k)) ∧
      mats (N := N) r.st.W = mats (tr r.iter).W ∧ mats (N := N) r'.st.W = mats (tr r'.iter).W ∧
      (r'.iter = r.iter → mats (N := N) r'.st.W = mats r.st.W) := by
  obtain ⟨r, n0, Us, hn, hr, u0, hu, hst, hsh, _⟩ := C48_cp (by omega) hN hS hF hG solve tol timelimit hm clock hf
  obtain ⟨r', tr, g, hr', htr, hst', _⟩ := C48_cp_dt h4 h5 (by omega) hF (f := ⟨W, G⟩) hS hG 0 solve ha hres clock' hf'
  have key : ∀ k, Shaped (fun _ : Fin N => s) R V (tr k).W ∧ (tr k).G.length = N ∧ mats (N := N) (Us k) = mats (tr k).W := by
    intro k
    induction k with
    | zero =>
      have : tr 0 = ⟨W, G⟩ := (Except.ok.inj (htr 0)).symm
      rw [this, u0]
      exact ⟨hS, hG, rfl⟩
    | succ k ih =>
      obtain ⟨i1, i2, i3⟩ := ih
      obtain ⟨G', hs⟩ := hu k
      obtain ⟨W1, W2, w1, w2, w3, w4, w5⟩ := C48_cp_sweep (by omega) hN (hsh k) hF solve G' n0 hn
      have e1 : Us (k + 1) = W2 := by
        have := Except.ok.inj (hs.symm.trans w5)
        exact congrArg CPState.W this
      rw [if_pos (fun i x _ r _ => hF0 i x r)] at w3
      obtain ⟨f1, b1, b2, b3, b4⟩ := C25_sweep_exact h4 h5 (by omega) hF i1 i2 0 solve
      have e2 : mats (N := N) W1 = mats f1.W := by
        rw [w1]
        have hb : mats (N := N) f1.W = (sweepPlus (fun _ : Fin N => s) R 0 solve (arr V N) (mats F) (facs N (tr k))).W := by
          rw [← b4]
        rw [hb]
        have : ∀ (l : List (Fin N)) (st st' : Spec.AlsState N ℝ), st.W = st'.W →
            (l.foldl (fun st i => Spec.modeUpdate (fun _ : Fin N => s) R 0 solve
              (fun x r => Spec.mttkrp (fun _ : Fin N => s) (arr V N) st.W i x r + mats F i x r) st i) st).W =
            (l.foldl (fun st i => Spec.modeUpdate (fun _ : Fin N => s) R 0 solve
              (fun x r => Spec.mttkrp (fun _ : Fin N => s) (arr V N) st.W i x r + mats F i x r) st i) st').W := by
          intro l
          induction l with
          | nil => intro st st' h; exact h
          | cons i l ih =>
            intro st st' h
            rw [List.foldl_cons, List.foldl_cons]
            refine ih _ _ ?_
            unfold Spec.modeUpdate
            simp only [h]
        exact this _ _ _ i3
      obtain ⟨X, X', x1, x2, x3, x4, x5⟩ := normalize_congr w2 b2 e2
      obtain rfl : X = W2 := Except.ok.inj (x1.symm.trans w3)
      have e3 : tr (k + 1) = ⟨X', f1.G⟩ := by
        have := htr (k + 1)
        rw [iterM_succ_right', htr k] at this
        simp only [legacySweep, bind, Except.bind, pure, Except.pure] at this
        rw [b1] at this
        simp only at this
        rw [x2] at this
        exact (Except.ok.inj this).symm
      rw [e3, e1]
      exact ⟨x4, b3, x5⟩
  refine ⟨r, r', tr, hr, hr', htr, by rw [hst]; exact (key _).2.2, by rw [hst'], fun h => ?_⟩
  rw [hst', hst, h]
  exact (key _).2.2.symm

/-- **C90 (`alsTucker` and `alsTucker_DT`).** Orders 4 and 6..10, the same SVD: both drivers pass through the same factors; calls
that do the same number of sweeps leave the same factors. -/
theorem C90_tucker (h4 : 4 ≤ N) (h5 : N ≠ 5) (hN : N ≤ 10) {rk : Fin N → ℕ} (hr : ∀ j, rk j ≤ dims j) {W : List (Tensor ℝ)}
    (hS : TuckShaped dims rk V W) {core : Tensor ℝ} (hcore : core.lens = List.ofFn rk) {k : Kern ℝ} (hk : SvdShape k)
    (tol timelimit : ℝ) {maxiter : ℤ} (hm : 0 ≤ maxiter) (clock : ℕ → ℝ) {fuel : ℕ} (hf : (maxiter + 1).toNat < fuel) {a : LLArgs}
    (ha : 0 ≤ a.maxiter) (hres : a.resprint ≠ 0) (clock' : ℕ → ℝ) {fuel' : ℕ} (hf' : (a.maxiter + 1).toNat < fuel') :
    ∃ (r r' : LLEnd TuckState) (Ws : ℕ → List (Tensor ℝ)),
      alsTucker k V tol timelimit maxiter clock fuel core W = .ok r ∧ alsTuckerDT k V a clock' fuel' core W = .ok r' ∧
      (∀ n, iterM (tuckSweep k V (List.ofFn rk)) n W = .ok (Ws n)) ∧ r.st.W = Ws r.iter ∧ r'.st.W = Ws r'.iter := by
  obtain ⟨r, Ws, h1, h2, h3, _⟩ := C48_tucker (by omega) hN hr hS hcore hk tol timelimit hm clock hf
  obtain ⟨r', Us, g1, g0, g2, g3, _⟩ := C48_tucker_dt h4 h5 hN hr hS hcore hk ha hres clock' hf'
  have key : ∀ n, Us n = Ws n ∧ TuckShaped dims rk V (Ws n) := by
    intro n
    induction n with
    | zero =>
      have : Ws 0 = W := (Except.ok.inj (h2 0)).symm
      rw [g0, this]
      exact ⟨rfl, hS⟩
    | succ n ih =>
      obtain ⟨i1, i2⟩ := ih
      obtain ⟨W', C, a1, a2, a3⟩ := C35_tree_eq_direct h4 h5 hN hr i2 hk core
      obtain ⟨W2, b1, b2, _⟩ := tuckSweep_ok (by omega) hN hr i2 hk
      obtain ⟨C', c1⟩ := g2 n
      rw [i1, a3] at c1
      have e1 : W' = Us (n + 1) := congrArg Prod.fst (Except.ok.inj c1)
      have e2 : W' = Ws (n + 1) := by
        have := h2 (n + 1)
        rw [iterM_succ_right', h2 n] at this
        exact Except.ok.inj (a1.symm.trans this)
      have e3 : W2 = W' := Except.ok.inj (b1.symm.trans a1)
      rw [← e1, ← e2]
      exact ⟨rfl, by rw [← e3]; exact b2⟩
  exact ⟨r, r', Ws, h1, g1, h2, h3, by rw [g3, (key _).1]⟩

theorem factor_ne_zero_of_posDef (h2 : 2 ≤ N) (hR : 0 < R) {W : Fin N → ℕ → ℕ → ℝ}
    (h : ∀ i, Spec.PosDef R (Spec.normalMat dims R 0 W i)) (j : Fin N) : ∃ x < dims j, ∃ r < R, W j x r ≠ 0 := by
  by_contra hn
  push Not at hn
  obtain ⟨i, hi⟩ : ∃ i : Fin N, j ≠ i := by
    by_cases h0 : j.1 = 0
    · exact ⟨⟨1, by omega⟩, fun e => by rw [e] at h0; simp at h0⟩
    · exact ⟨⟨0, by omega⟩, fun e => h0 (by rw [e])⟩
  have := (h i).2 (fun a => if a = 0 then 1 else 0) ⟨0, hR, by simp⟩
  have hz : ∀ a < R, ∀ b < R, Spec.normalMat dims R 0 W i a b = 0 := by
    intro a ha b hb
    unfold Spec.normalMat
    rw [Spec.clip_of ha hb]
    have : Spec.gramExcept dims W i a b = 0 := by
      unfold Spec.gramExcept
      refine prod_eq_zero (mem_erase.2 ⟨hi, mem_univ j⟩) ?_
      exact sum_eq_zero fun x hx => by rw [hn x (mem_range.1 hx) a ha, zero_mul]
    rw [this]
    simp
  rw [sum_eq_zero fun a ha => sum_eq_zero fun b hb => by rw [hz a (mem_range.1 ha) b (mem_range.1 hb)]; ring] at this
  exact lt_irrefl _ this

/-- **C90 (`Normalize`).** Without regularisation, as long as the normal-equation matrices along plain ALS are positive definite,
the rescaling of the factors after each sweep of `alsCP_DT` does not matter: after any number of sweeps the factors are multiples,
by numbers with product 1, of those of plain ALS with any exact solver, and represent the same tensor. -/
theorem C90_normalize (h4 : 4 ≤ N) (h5 : N ≠ 5) (hN : N ≤ 31) {F : List (Tensor ℝ)} (hR : 0 < R)
    (hF : Shaped dims R V F) (hF0 : ∀ i x r, mats (N := N) F i x r = 0) (hS : Shaped dims R V f.W) (hG : f.G.length = N)
    {solve solve' : Spec.Solver ℝ} (hsv : Spec.SolvesPosDef solve) (hsv' : Spec.SolvesPosDef solve')
    (good : ∀ l i, Spec.PosDef R (Spec.normalMat dims R 0 (Spec.alsRun dims R 0 solve (arr V N) l (facs N f)).W i)) (k : ℕ) :
    ∃ f', iterM (legacySweep N R 0 solve' V F) k f = .ok f' ∧
      (∃ c : Fin N → ℝ, ∏ j, c j = 1 ∧ ∀ j, ∀ x < dims j, ∀ r < R,
        mats f'.W j x r = c j * ((Spec.alsSweep dims R 0 solve (arr V N))^[k] (facs N f)).W j x r) ∧
      ∀ idx ∈ Spec.Box dims, Spec.recon R (mats f'.W) idx =
        Spec.recon R ((Spec.alsSweep dims R 0 solve (arr V N))^[k] (facs N f)).W idx := by
  have hreach : ∀ k, ∃ l, (Spec.alsSweep dims R 0 solve (arr V N))^[k] (facs N f) =
      Spec.alsRun dims R 0 solve (arr V N) l (facs N f) := by
    intro k
    induction k with
    | zero => exact ⟨[], rfl⟩
    | succ k ih =>
      obtain ⟨l, hl⟩ := ih
      refine ⟨l ++ List.finRange N, ?_⟩
      rw [Function.iterate_succ_apply', hl, Spec.alsRun_append]
      rfl
  have key : ∃ f', iterM (legacySweep N R 0 solve' V F) k f = .ok f' ∧ Shaped dims R V f'.W ∧ f'.G.length = N ∧
      ∃ c : Fin N → ℝ, ∏ j, c j = 1 ∧ ∀ j, ∀ x < dims j, ∀ r < R,
        mats f'.W j x r = c j * ((Spec.alsSweep dims R 0 solve (arr V N))^[k] (facs N f)).W j x r := by
    induction k with
    | zero => exact ⟨f, rfl, hS, hG, fun _ => 1, by simp, fun j x _ r _ => by rw [one_mul]; rfl⟩
    | succ k ih =>
      obtain ⟨f1, a1, a2, a3, c, a4, a5⟩ := ih
      obtain ⟨l, hl⟩ := hreach k
      have hok : (colCoord (Equiv.refl ℕ) (fun (j : Fin N) (_ : ℕ) => c j) 1).Ok dims dims R :=
        colCoord_ok (fun _ => Iff.rfl) one_ne_zero (fun r _ => a4)
      have rel := hok.run_W (lam := 0) (.inl rfl) hsv hsv' (V := arr V N) (V' := arr V N)
        (fun idx hidx => by rw [colCoord_tensor _ hidx, one_mul]) (List.finRange N)
        ((Spec.alsSweep dims R 0 solve (arr V N))^[k] (facs N f)) (facs N f1)
        (fun j x hx r hr => by rw [colCoord_fac _ j hx]; exact a5 j x hx r hr)
        (fun l' i _ => by rw [hl, ← Spec.alsRun_append]; exact good _ i)
      obtain ⟨l2, hl2⟩ := hreach (k + 1)
      have e : Spec.alsRun dims R 0 solve (arr V N) (List.finRange N) ((Spec.alsSweep dims R 0 solve (arr V N))^[k] (facs N f)) =
          (Spec.alsSweep dims R 0 solve (arr V N))^[k + 1] (facs N f) := by
        rw [Function.iterate_succ_apply']; rfl
      rw [e] at rel
      have rel' : ∀ j, ∀ x < dims j, ∀ r < R, (Spec.alsSweep dims R 0 solve' (arr V N) (facs N f1)).W j x r =
          c j * ((Spec.alsSweep dims R 0 solve (arr V N))^[k + 1] (facs N f)).W j x r := by
        intro j x hx r hr
        have := rel j x hx r hr
        rw [colCoord_fac _ j hx] at this
        exact this
      have hc : ∀ j, c j ≠ 0 := fun j hj => by
        rw [prod_eq_zero (mem_univ j) hj] at a4
        exact zero_ne_one a4
      obtain ⟨f2, b1, b2, b3, ⟨c', b4, b5, b6⟩, _⟩ := C25_sweep_normalized h4 h5 hN hF hF0 a2 a3 0 solve' (by
        intro j
        obtain ⟨x, hx, r, hr, hne⟩ := factor_ne_zero_of_posDef (dims := dims)
          (W := ((Spec.alsSweep dims R 0 solve (arr V N))^[k + 1] (facs N f)).W) (by omega) hR (by
            intro i; rw [hl2]; exact good l2 i) j
        exact ⟨x, hx, r, hr, by rw [rel' j x hx r hr]; exact mul_ne_zero (hc j) hne⟩)
      refine ⟨f2, by rw [iterM_succ_right', a1]; exact b1, b2, b3, fun j => c' j * c j, by rw [prod_mul_distrib, a4, b5, one_mul], ?_⟩
      intro j x hx r hr
      rw [b6 j x hx r hr, rel' j x hx r hr, mul_assoc]
  obtain ⟨f', h1, _, _, c, h2, h3⟩ := key
  refine ⟨f', h1, ⟨c, h2, h3⟩, fun idx hidx => ?_⟩
  unfold Spec.recon
  refine sum_congr rfl fun r hr => ?_
  rw [prod_congr rfl fun j _ => h3 j _ (Spec.mem_Box.1 hidx j) r (mem_range.1 hr), prod_mul_distrib, h2, one_mul]

/-! Non-vacuity: DT tested every 6 and MSDT every 4 steps (3 sweeps of a tensor of order 4) on clocks of different speed, the time
runs out at the third test; the legacy drivers on a tensor of shape 2×2×2×2; the tensor of twos. -/

section Examples

example : ∃ (o1 o2 : OptState ℝ) (r1 r2 : AlsEnd (OptState ℝ × Fac ℝ)),
    cpdAls .dt 4 2 (1 / 2) (fun _ _ M _ => M) 1 exLRR exVR ⟨-1, 6, 30, 6⟩ (fun k => k) 100 (o1, ⟨exOnesW, exOnesW⟩) = .ok r1 ∧
    cpdAls .msdt 4 2 (1 / 2) (fun _ _ M _ => M) 1 exLRR exVR ⟨-1, 4, 30, 4⟩ (fun k => k) 100 (o2, ⟨exOnesW, exOnesW⟩) = .ok r2 ∧
    r1.broke = true ∧ r2.sweeps = r1.sweeps ∧ r2.ret = true ∧ facs 4 r2.st.2 = facs 4 r1.st.2 := by
  have hdt : OptFits (N := 4) .dt ![2, 3, 1, 4] := ⟨by norm_num, by norm_num, by simp⟩
  obtain ⟨o1, o2, r1, r2, h1, h2, h3, h4, h5, _⟩ := C90_interchangeable (N := 4) (k1 := .dt) (k2 := .msdt) (.inr (.inl rfl))
    (.inr (.inr rfl)) hdt exFits (f := ⟨exOnesW, exOnesW⟩) exOnesW_shapedR exOnesW_shapedR (1 / 2) (fun _ _ M _ => M) 1 exLRR
    (tol := -1) (timelimit1 := 6) (timelimit2 := 4) (maxsweep := 30) (p1 := 6) (p2 := 4) (h := 3) (by norm_num)
    (by norm_num [stepSweeps]) (by norm_num [stepSweeps]) (clock1 := fun k => k) (clock2 := fun k => k)
    (by
      intro t
      have e1 : (6 : ℝ) < ((6 * t : ℕ) : ℝ) ↔ 6 < 6 * t := by exact_mod_cast Iff.rfl
      have e2 : (4 : ℝ) < ((4 * t : ℕ) : ℝ) ↔ 4 < 4 * t := by exact_mod_cast Iff.rfl
      rw [e1, e2]
      omega) (fuel1 := 100) (fuel2 := 100) (by simp [stepLimit]) (by
      simp only [stepLimit]
      exact lt_of_le_of_lt (Nat.ceil_le.2 (show _ ≤ ((42 : ℕ) : ℚ) by norm_num)) (by norm_num))
  obtain ⟨o1', s, u, v, tr, c, r, _, _, hr, H⟩ := cpdAls_hist (a := ⟨-1, 6, 30, 6⟩) hdt (R := 2) (V := exVR)
    (f := ⟨exOnesW, exOnesW⟩) exOnesW_shapedR exOnesW_shapedR.count (1 / 2) (fun _ _ M _ => M) 1 exLRR (by norm_num)
    (fun k => k) 0 (fuel := 100) (by simp [stepLimit])
  cases v
  rw [h1] at u; cases u
  obtain rfl : r1 = r := Except.ok.inj (h3.symm.trans hr)
  have hs : Stops ⟨-1, 6, 30, 6⟩ (stepSweeps 4 .dt) (fun k => (k : ℝ)) 12 (c 12).1 :=
    ⟨checked_mul (a := ⟨-1, 6, 30, 6⟩) (p := 6) rfl 2 _, .inr (by norm_num)⟩
  have hb : ¬ 12 < r1.iters := fun h => H.before 12 h hs
  have hbr : r1.broke = true := by
    by_contra hn
    have := H.atEnd (by simpa using hn)
    rw [alsBound_kind (by norm_num)] at this
    simp [stepLimit] at this
    omega
  have hsw := H.sweeps
  obtain ⟨_, e1, _, e2, _, e3⟩ := h5 hbr (.inl (by
    rw [hsw]
    have : (r1.iters : ℚ) ≤ 12 := by exact_mod_cast (not_lt.1 hb)
    simp only [stepSweeps]
    norm_num
    linarith))
  exact ⟨o1, o2, r1, r2, h3, h4, hbr, e1, e2, e3⟩

example := C90_legacy_cp (N := 4) (R := 1) (by norm_num) (by norm_num) (by norm_num) exHyperShaped (G := exHyperW) rfl
  (F := [⟨[2, 1], fun _ => 0⟩, ⟨[2, 1], fun _ => 0⟩, ⟨[2, 1], fun _ => 0⟩, ⟨[2, 1], fun _ => 0⟩])
  ⟨rfl, rfl, by intro j M h; fin_cases j <;> (simp at h; subst h; rfl)⟩ (by intro j x r; fin_cases j <;> rfl)
  (fun _ _ M _ => M) 0 60 (maxiter := 20) (by norm_num) (fun _ => 0) (fuel := 100) (by norm_num) (a := ⟨0, 60, 20, 10⟩) (by norm_num)
  (by norm_num) (fun _ => 0) (fuel' := 100) (by norm_num)

example : ∃ (k : Kern ℝ) (r r' : LLEnd TuckState) (Ws : ℕ → List (Tensor ℝ)),
    alsTucker k exHyperV 0 60 20 (fun _ => 0) 100 ⟨[1, 1, 1, 1], fun _ => 0⟩ exHyperW = .ok r ∧
    alsTuckerDT k exHyperV ⟨0, 60, 20, 10⟩ (fun _ => 0) 100 ⟨[1, 1, 1, 1], fun _ => 0⟩ exHyperW = .ok r' ∧
    r.st.W = Ws r.iter ∧ r'.st.W = Ws r'.iter := by
  obtain ⟨k, _, hk⟩ := exists_svdLeading
  obtain ⟨r, r', Ws, h1, h2, _, h3, h4⟩ := C90_tucker (N := 4) (rk := fun _ => 1) (by norm_num) (by norm_num) (by norm_num)
    (fun _ => by norm_num) exHyperTuck (core := ⟨[1, 1, 1, 1], fun _ => 0⟩) rfl hk 0 60 (maxiter := 20) (by norm_num) (fun _ => 0)
    (fuel := 100) (by norm_num) (a := ⟨0, 60, 20, 10⟩) (by norm_num) (by norm_num) (fun _ => 0) (fuel' := 100) (by norm_num)
  exact ⟨k, r, r', Ws, h1, h2, h3, h4⟩

/-- The tensor of twos of shape 2×2×2×2 and exact factors that `Normalize` changes. -/
noncomputable def exTwos4V : Tensor ℝ := ⟨[2, 2, 2, 2], fun _ => 2⟩
noncomputable def exTwos4W : List (Tensor ℝ) := [⟨[2, 1], fun _ => 2⟩, ⟨[2, 1], fun _ => 1⟩, ⟨[2, 1], fun _ => 1⟩, ⟨[2, 1], fun _ => 1⟩]

example (n : ℕ) : ∃ (k : Kern ℝ) (f' : Fac ℝ), KernOk k ∧
    iterM (legacySweep 4 1 0 (cholSolver k) exTwos4V
      [⟨[2, 1], fun _ => 0⟩, ⟨[2, 1], fun _ => 0⟩, ⟨[2, 1], fun _ => 0⟩, ⟨[2, 1], fun _ => 0⟩]) n ⟨exTwos4W, exTwos4W⟩ = .ok f' ∧
    ∀ idx ∈ Spec.Box (fun _ : Fin 4 => 2), Spec.recon 1 (mats f'.W) idx =
      Spec.recon 1 ((Spec.alsSweep (fun _ : Fin 4 => 2) 1 0 (cholSolver k) (arr exTwos4V 4))^[n] (facs 4 ⟨exTwos4W, exTwos4W⟩)).W idx := by
  obtain ⟨k, hk⟩ := exists_kernOk
  have hm : ∀ (j : Fin 4) (x r : ℕ), mats (N := 4) exTwos4W j x r = if j = 0 then 2 else 1 := by
    intro j x r
    fin_cases j <;> rfl
  have sW : Shaped (N := 4) (fun _ => 2) 1 exTwos4V exTwos4W :=
    ⟨rfl, rfl, by intro j M h; fin_cases j <;> (simp [exTwos4W] at h; subst h; rfl)⟩
  have hex : Exact (fun _ : Fin 4 => 2) 1 (arr exTwos4V 4) (mats exTwos4W) := by
    intro idx _
    simp only [Spec.recon, hm, sum_range_one, Fin.prod_univ_four]
    simp [arr, exTwos4V, show (1 : Fin 4) ≠ 0 by decide, show (2 : Fin 4) ≠ 0 by decide, show (3 : Fin 4) ≠ 0 by decide]
  have hpd : ∀ i : Fin 4, Spec.PosDef 1 (Spec.normalMat (fun _ : Fin 4 => 2) 1 0 (mats exTwos4W) i) := by
    intro i
    refine ⟨fun a ha b hb => ?_, fun v hv => ?_⟩
    · interval_cases a; interval_cases b; rfl
    · obtain ⟨a, ha, hva⟩ := hv
      interval_cases a
      have : 0 < Spec.normalMat (fun _ : Fin 4 => 2) 1 (0 : ℝ) (mats exTwos4W) i 0 0 := by
        simp only [Spec.normalMat, Spec.clip, Spec.gramExcept, Spec.gram, hm]
        norm_num
        refine prod_pos fun j _ => ?_
        split_ifs <;> norm_num
      simp only [sum_range_one]
      rw [mul_right_comm]
      exact mul_pos (mul_self_pos.2 hva) this
  obtain ⟨f', h1, _, h2⟩ := C90_normalize (N := 4) (R := 1) (by norm_num) (by norm_num) (by norm_num)
    (F := [⟨[2, 1], fun _ => 0⟩, ⟨[2, 1], fun _ => 0⟩, ⟨[2, 1], fun _ => 0⟩, ⟨[2, 1], fun _ => 0⟩]) (by norm_num)
    ⟨rfl, rfl, by intro j M h; fin_cases j <;> (simp at h; subst h; rfl)⟩ (by intro j x r; fin_cases j <;> rfl)
    (f := ⟨exTwos4W, exTwos4W⟩) sW rfl (C12_cholesky_solver hk) (C12_cholesky_solver hk) (by
      intro l i
      obtain ⟨e, _⟩ := Spec.alsRun_fixed (C12_cholesky_solver hk) (fun i _ => hpd i) (fun i => exact_stationary hex) l
        (facs 4 ⟨exTwos4W, exTwos4W⟩) (fun _ _ _ _ _ => rfl)
      rw [Spec.normalMat_congr e]
      exact hpd i) n
  exact ⟨k, f', hk, h1, h2⟩

end Examples

end Properties
