import Verif.Properties.FullRank

/-! # C75: `als` with the low-rank DT optimizer -/

namespace Properties

open Model Finset

variable {N : ℕ} {dims : Fin N → ℕ} {R : ℕ} {lam : ℝ} {q : ℕ} {V : Tensor ℝ} {f : Fac ℝ} {kn : Kern ℝ}
  {X0 : ℕ → ℕ → (ℕ → ℕ → ℝ) → (ℕ → ℕ → ℝ) → (ℕ → ℕ → ℝ) → Tensor ℝ} {random : Bool}

theorem logRows_filter (a : AlsArgs) (inc : ℚ) (c : ℕ → ℝ × ℝ) (m K : ℕ) :
    (logRows a inc c K).filter (fun w => decide (w.iter ≤ m)) = logRows a inc c (min K (m + 1)) := by
  induction K with
  | zero => simp [logRows]
  | succ K ih =>
    rw [logRows_succ, List.filter_append, ih]
    by_cases h : K ≤ m
    · rw [min_eq_left (by omega), min_eq_left (by omega), logRows_succ]
      split_ifs <;> simp [h]
    · rw [min_eq_right (by omega), min_eq_right (by omega)]
      split_ifs <;> simp [h]

theorem logRows_even {a : AlsArgs} {inc : ℚ} {c c' : ℕ → ℝ × ℝ} {K : ℕ}
    (h : ∀ j < K, alsChecked a j (j * inc) → c j = c' j) : logRows a inc c K = logRows a inc c' K := by
  induction K with
  | zero => simp [logRows]
  | succ K ih =>
    rw [logRows_succ, logRows_succ, ih fun j hj => h j (by omega)]
    by_cases hc : alsChecked a K (K * inc)
    · rw [if_pos hc, if_pos hc, h K (by omega) hc]
    · rw [if_neg hc, if_neg hc]

/-- Two executions whose checks agree at even steps, when the log interval is even. -/
theorem hist_even {σ τ : Type} {a : AlsArgs} {clock : ℕ → ℝ} {tr : ℕ → σ} {tr' : ℕ → τ} {c c' : ℕ → ℝ × ℝ} {r : AlsEnd σ} {r' : AlsEnd τ}
    (hev : (2 : ℤ) ∣ a.resprint) (H : AlsHist a (1 / 2) clock tr c r) (H' : AlsHist a (1 / 2) clock tr' c' r')
    (hc : ∀ p, c (2 * p) = c' (2 * p)) :
    ((r.iters : ℤ) ≤ 2 * a.maxsweep ∨ (r'.iters : ℤ) ≤ 2 * a.maxsweep →
      r.iters = r'.iters ∧ 2 ∣ r.iters ∧ r.ret = r'.ret ∧ r.rows = r'.rows) ∧
    r.rows.filter (fun w => decide ((w.iter : ℤ) ≤ 2 * a.maxsweep)) = r'.rows.filter (fun w => decide ((w.iter : ℤ) ≤ 2 * a.maxsweep)) := by
  have even : ∀ j : ℕ, (j : ℤ) ≤ 2 * a.maxsweep → alsChecked a j (j * (1 / 2)) → 2 ∣ j := by
    rintro j hj (h | h | h)
    · exact Int.natCast_dvd_natCast.1 (hev.trans (Int.dvd_of_tmod_eq_zero h))
    · have : ((2 * a.maxsweep : ℤ) : ℚ) ≤ ((j : ℤ) : ℚ) := by push_cast; linarith
      have := Int.cast_le.1 this
      omega
    · have : (j : ℚ) = 0 := by linarith
      have : j = 0 := by exact_mod_cast this
      omega
  have same : ∀ j : ℕ, (j : ℤ) ≤ 2 * a.maxsweep → alsChecked a j (j * (1 / 2)) → c j = c' j := by
    intro j hj h
    obtain ⟨p, rfl⟩ := even j hj h
    exact hc p
  have st : ∀ j : ℕ, (j : ℤ) ≤ 2 * a.maxsweep → (Stops a (1 / 2) clock j (c j).1 ↔ Stops a (1 / 2) clock j (c' j).1) := by
    intro j hj
    constructor
    · rintro ⟨h1, h2⟩; exact ⟨h1, by rwa [← same j hj h1]⟩
    · rintro ⟨h1, h2⟩; exact ⟨h1, by rwa [same j hj h1]⟩
  have bd : ∀ j : ℕ, (j : ℤ) ≤ 2 * a.maxsweep → j ≠ alsBound a.maxsweep (1 / 2) := by
    rintro j hj rfl
    have h1 : ((a.maxsweep : ℚ) + 1) / (1 / 2) ≤ (alsBound a.maxsweep (1 / 2) : ℚ) := Nat.le_ceil _
    have h2 : ((alsBound a.maxsweep (1 / 2) : ℕ) : ℚ) ≤ ((2 * a.maxsweep : ℤ) : ℚ) := by exact_mod_cast hj
    push_cast at h2
    linarith
  have brk : (r.iters : ℤ) ≤ 2 * a.maxsweep → r.broke = true ∧ Stops a (1 / 2) clock r.iters (c r.iters).1 := by
    intro h
    rcases hb : r.broke with _ | _
    · exact absurd (H.atEnd hb) (bd _ h)
    · exact ⟨rfl, (H.atBreak hb).2⟩
  have brk' : (r'.iters : ℤ) ≤ 2 * a.maxsweep → r'.broke = true ∧ Stops a (1 / 2) clock r'.iters (c' r'.iters).1 := by
    intro h
    rcases hb : r'.broke with _ | _
    · exact absurd (H'.atEnd hb) (bd _ h)
    · exact ⟨rfl, (H'.atBreak hb).2⟩
  have eqI : (r.iters : ℤ) ≤ 2 * a.maxsweep ∨ (r'.iters : ℤ) ≤ 2 * a.maxsweep → r.iters = r'.iters := by
    intro h
    rcases lt_trichotomy r.iters r'.iters with hlt | he | hlt
    · have h1 : (r.iters : ℤ) ≤ 2 * a.maxsweep := by omega
      exact absurd ((st _ h1).1 (brk h1).2) (H'.before _ hlt)
    · exact he
    · have h1 : (r'.iters : ℤ) ≤ 2 * a.maxsweep := by omega
      exact absurd ((st _ h1).2 (brk' h1).2) (H.before _ hlt)
  have first : (r.iters : ℤ) ≤ 2 * a.maxsweep ∨ (r'.iters : ℤ) ≤ 2 * a.maxsweep →
      r.iters = r'.iters ∧ 2 ∣ r.iters ∧ r.ret = r'.ret ∧ r.rows = r'.rows := by
    intro h
    have e := eqI h
    have h1 : (r.iters : ℤ) ≤ 2 * a.maxsweep := by omega
    have h2 : (r'.iters : ℤ) ≤ 2 * a.maxsweep := by omega
    refine ⟨e, even _ h1 (brk h1).2.1, by rw [H.ret, H'.ret, H.sweeps, H'.sweeps, e], ?_⟩
    rw [H.rows, H'.rows, (brk h1).1, (brk' h2).1, e]
    exact logRows_even fun j hj hj' => same j (by simp at hj; omega) hj'
  refine ⟨first, ?_⟩
  by_cases h : (r.iters : ℤ) ≤ 2 * a.maxsweep ∨ (r'.iters : ℤ) ≤ 2 * a.maxsweep
  · rw [(first h).2.2.2]
  · by_cases hm : a.maxsweep < 0
    · have : ∀ n : ℕ, ¬ ((n : ℤ) ≤ 2 * a.maxsweep) := fun n => by omega
      simp [this]
    · obtain ⟨m, em⟩ : ∃ m : ℕ, (m : ℤ) = 2 * a.maxsweep := ⟨(2 * a.maxsweep).toNat, by omega⟩
      have eq1 : (fun w : AlsRow => decide ((w.iter : ℤ) ≤ 2 * a.maxsweep)) = fun w => decide (w.iter ≤ m) := by
        funext w
        rw [← em]
        simp
      rw [eq1, H.rows, H'.rows, logRows_filter, logRows_filter, min_eq_right (by split_ifs <;> omega),
        min_eq_right (by split_ifs <;> omega)]
      exact logRows_even fun j hj hj' => same j (by omega) hj'

/-- **C75 (DT, `als`).** The same for the low-rank dimension-tree optimizer when the log interval is even, so that checks before the last
sweep fall on whole sweeps: the rows logged during the first `maxsweep` sweeps are those of `als` with the DT optimizer and any exact solver; if
one of the two stops there, so does the other, after the same number of steps with the same result, log and factors; and whenever both
make the same even number of steps the factors and gradients are the same.  (The two split a sweep differently, so the check half a sweep
after `maxsweep` sweeps may stop one and not the other.) -/
theorem C75_dtlr_als (hfit : OptFits .dt dims) (hS : Shaped dims R V f.W) (hG : Shaped dims R V f.G) (hl : 0 < lam)
    (hk : LRKernOk kn) (hq : FullUpdateRank dims R q random) (hX0 : random = true → ∀ n R M A S, (X0 n R M A S).lens = [R, q])
    {solve : Spec.Solver ℝ} (hsv : Spec.SolvesPosDef solve) {a : AlsArgs} (hres : a.resprint ≠ 0) (hev : (2 : ℤ) ∣ a.resprint)
    (clock : ℕ → ℝ) {fuel : ℕ} (hf : stepLimit N a.maxsweep .dt < fuel) :
    ∃ o0 o0' r r', optInit ℝ N .dtlr = .ok o0 ∧ optInit ℝ N .dt = .ok o0' ∧
      cpdAls .dtlr N R lam (cholSolver kn) q (lrSolver kn X0 q random) V a clock fuel (o0, f) = .ok r ∧
      cpdAls .dt N R lam solve q (lrSolver kn X0 q random) V a clock fuel (o0', f) = .ok r' ∧
      r.rows.filter (fun w => decide ((w.iter : ℤ) ≤ 2 * a.maxsweep)) =
        r'.rows.filter (fun w => decide ((w.iter : ℤ) ≤ 2 * a.maxsweep)) ∧
      ((r.iters : ℤ) ≤ 2 * a.maxsweep ∨ (r'.iters : ℤ) ≤ 2 * a.maxsweep →
        r.iters = r'.iters ∧ r.ret = r'.ret ∧ r.rows = r'.rows ∧ facs N r.st.2 = facs N r'.st.2) ∧
      (r.iters = r'.iters → 2 ∣ r.iters → facs N r.st.2 = facs N r'.st.2) := by
  have h3 := hfit.lo
  have hN : N ≤ 31 := by have := hfit.hi; omega
  have hfit' : OptFits .dtlr dims := ⟨hfit.lo, hfit.hi, by intro h; cases h⟩
  obtain ⟨p0, T, p0e, hT0, t1, t2, _⟩ := dtlr_G h3 hN hS hG lam (cholSolver kn) q (lrSolver kn X0 q random)
  obtain ⟨o2, T2, o2e, u1, u2, _⟩ := opt_trace_modes (kind := .dt) (.inr (.inl rfl)) hfit hS hG lam solve q (lrSolver kn X0 q random)
  obtain ⟨o0, s, h0, hs, w, c, r, hw, hc, hr, H⟩ := cpdAls_hist hfit' hS hG.count lam (cholSolver kn) q (lrSolver kn X0 q random)
    hres clock 0 (fuel := fuel) hf
  obtain ⟨o0', s', h0', hs', w', c', r', hw', hc', hr', H'⟩ := cpdAls_hist hfit hS hG.count lam solve q (lrSolver kn X0 q random)
    hres clock 0 hf
  cases hs; cases hs'
  rw [o2e] at h0'; cases h0'
  have e0 : o0 = .dtlr p0 := by
    simp only [optInit, p0e, bind, Except.bind, pure, Except.pure] at h0
    exact (Except.ok.inj h0).symm
  subst e0
  have ew : ∀ t, w t = (.dtlr (T t).1, (T t).2) := by
    intro t
    have := iterM_map (s1 := dtlrStep N R lam (cholSolver kn) q (lrSolver kn X0 q random) V)
      (s2 := optStep N R lam (cholSolver kn) q (lrSolver kn X0 q random) V)
      (fun g => ((.dtlr g.1 : OptState ℝ), g.2)) (fun x => by
        obtain ⟨x1, x2⟩ := x
        simp only [optStep, bind, Except.bind, Except.map]
        cases dtlrStep N R lam (cholSolver kn) q (lrSolver kn X0 q random) V (x1, x2) <;> rfl) t (p0, f)
    rw [t1 t] at this
    exact Except.ok.inj ((hw t).symm.trans this)
  have ew' : ∀ t, w' t = T2 t := fun t => Except.ok.inj ((hw' t).symm.trans (u1 t))
  have ef : ∀ p, facs N (w (2 * p)).2 = facs N (w' (2 * p)).2 := by
    intro p
    obtain ⟨a1, a2, a3, b1, b2, b3, c1, c2, c3, c4, c5, _⟩ := C75_dtlr h3 hN hS hG.count hl hk hq hX0 hsv p
    rw [p0e] at c1; cases c1
    have d1 : T (2 * p) = (a2, a3) := Except.ok.inj ((t1 (2 * p)).symm.trans c2)
    have d2 : w' (2 * p) = (.dt b2, b3) := by
      have := iterM_map (s1 := dtStep N R lam solve V)
        (s2 := optStep N R lam solve q (lrSolver kn X0 q random) V)
        (fun g => ((.dt g.1 : OptState ℝ), g.2)) (fun x => by
          obtain ⟨x1, x2⟩ := x
          simp only [optStep, bind, Except.bind, Except.map]
          cases dtStep N R lam solve V (x1, x2) <;> rfl) (2 * p) (b1, f)
      rw [c4] at this
      have e2 : o2 = .dt b1 := by
        simp only [optInit, c3, bind, Except.bind, pure, Except.pure] at o2e
        exact (Except.ok.inj o2e).symm
      rw [e2] at hw'
      exact Except.ok.inj ((hw' (2 * p)).symm.trans this)
    rw [ew, d1, d2]
    exact c5
  have ec : ∀ p, c (2 * p) = c' (2 * p) := by
    intro p
    have a1 := (hc (2 * p)).1
    have a2 := (hc (2 * p)).2
    have b1 := (hc' (2 * p)).1
    have b2 := (hc' (2 * p)).2
    have sW : Shaped dims R V (w (2 * p)).2.W ∧ Shaped dims R V (w (2 * p)).2.G := by rw [ew]; exact t2 _
    have sW' : Shaped dims R V (w' (2 * p)).2.W ∧ Shaped dims R V (w' (2 * p)).2.G := by rw [ew']; exact u2 _
    rw [C16_gradnorm (dims := dims) (R := R) (fun j => sW.2.get j)] at a1
    rw [C16_gradnorm (dims := dims) (R := R) (fun j => sW'.2.get j)] at b1
    rw [C16_residual (by omega) hfit.hi sW.1] at a2
    rw [C16_residual (by omega) hfit.hi sW'.1] at b2
    have m1 : mats (N := N) (w (2 * p)).2.W = mats (w' (2 * p)).2.W := funext fun j => congrFun (congrArg Spec.AlsState.W (ef p)) j
    have m2 : ∀ j, mats (N := N) (w (2 * p)).2.G j = mats (w' (2 * p)).2.G j := fun j => congrFun (congrArg Spec.AlsState.G (ef p)) j
    rw [← m1] at b2
    simp only [← m2] at b1
    exact Prod.ext (Except.ok.inj (a1.symm.trans b1)) (Except.ok.inj (a2.symm.trans b2))
  obtain ⟨k1, k2⟩ := hist_even hev H H' ec
  have key : r.iters = r'.iters → 2 ∣ r.iters → facs N r.st.2 = facs N r'.st.2 := by
    rintro e ⟨p, hp⟩
    rw [H.state, H'.state, ← e, hp]
    exact ef p
  refine ⟨_, o2, r, r', h0, o2e, hr, hr', k2, fun h => ?_, key⟩
  obtain ⟨e1, e2, e3, e4⟩ := k1 h
  exact ⟨e1, e3, e4, key e1 e2⟩

/-- `als` on a 3×3×3 tensor, a log line every two steps. -/
example : ∃ kn : Kern ℝ, LRKernOk kn ∧ ∀ random (clock : ℕ → ℝ) fuel, stepLimit 3 5 .dt < fuel →
    ∃ o0 o0' r r', optInit ℝ 3 .dtlr = .ok o0 ∧ optInit ℝ 3 .dt = .ok o0' ∧
      cpdAls .dtlr 3 2 (1 / 2) (cholSolver kn) 2 (lrSolver kn (fun _ R _ _ _ => ⟨[R, 2], fun _ => 1⟩) 2 random) exCubeV
        { exArgs with maxsweep := 5, resprint := 2 } clock fuel (o0, ⟨exCubeW, exCubeW⟩) = .ok r ∧
      cpdAls .dt 3 2 (1 / 2) (cholSolver kn) 2 (lrSolver kn (fun _ R _ _ _ => ⟨[R, 2], fun _ => 1⟩) 2 random) exCubeV
        { exArgs with maxsweep := 5, resprint := 2 } clock fuel (o0', ⟨exCubeW, exCubeW⟩) = .ok r' ∧
      r.rows.filter (fun w => decide ((w.iter : ℤ) ≤ 10)) = r'.rows.filter (fun w => decide ((w.iter : ℤ) ≤ 10)) := by
  obtain ⟨kn, h⟩ := exists_lrKernOk
  refine ⟨kn, h, fun random clock fuel hf => ?_⟩
  obtain ⟨o0, o0', r, r', h1, h2, h3, h4, h5, _⟩ := C75_dtlr_als (N := 3) (dims := fun _ => 3) (R := 2) (q := 2) (lam := 1 / 2)
    (random := random) (X0 := fun _ R _ _ _ => ⟨[R, 2], fun _ => 1⟩) (f := ⟨exCubeW, exCubeW⟩)
    (a := { exArgs with maxsweep := 5, resprint := 2 }) ⟨by norm_num, by norm_num, by intro h; cases h⟩ exCubeShaped exCubeShaped
    (by norm_num) h (by cases random <;> simp [FullUpdateRank]) (fun _ _ _ _ _ _ => rfl) (C12_cholesky_solver h.base)
    (by norm_num) (by norm_num) clock hf
  exact ⟨o0, o0', r, r', h1, h2, h3, h4, by simpa using h5⟩

end Properties
