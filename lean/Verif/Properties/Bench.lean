import Verif.Proofs.Bench
import Verif.Properties.Main

/-! # C63: `main` of pp_bench.cxx -/

namespace Properties

open Model Finset

theorem modelOpt_head (argv : List CStr) : (modelOpt argv).head? = some 'C' ∨ (modelOpt argv).head? = some 'T' := by
  unfold modelOpt
  split
  · split_ifs with hc
    · left; rfl
    · tauto
  · left; rfl

/-- **C63 (options).** Every option of pp_bench.cxx has its documented default, and an out-of-range value is replaced by it. -/
theorem C63_options {atof : CStr → F64} {argv : List CStr} {o : Opts} (h : benchOpts atof argv = .ok o) :
    (o.model.head? = some 'C' ∨ o.model.head? = some 'T') ∧
    IntOption argv "-pp" (fun x => x = 0 ∨ x = 1) 0 o.pp ∧ IntOption argv "-dim" (0 ≤ ·) 8 o.dim ∧
    IntOption argv "-maxiter" (0 ≤ ·) 5000 o.maxiter ∧ IntOption argv "-size" (0 ≤ ·) 10 o.size ∧
    IntOption argv "-rank" (fun x => 0 ≤ x ∧ x ≤ o.size) (o.size / 2) o.R ∧
    IntOption argv "-issparse" (fun x => x = 0 ∨ x = 1) 0 o.issparse ∧
    IntOption argv "-resprint" (0 ≤ ·) 10 o.resprint ∧
    RealOption atof argv "-tol" UnitOrNan 1e-10 o.tol ∧ RealOption atof argv "-pp_res_tol" UnitOrNan 1e-2 o.ppResTol ∧
    RealOption atof argv "-timelimit" NonnegOrNan 5000 o.timelimit ∧
    RealOption atof argv "-lambda" NonnegOrNan 0 o.lambda ∧ RealOption atof argv "-magni" NonnegOrNan 1 o.magni ∧
    RealOption atof argv "-rationoise" NonnegOrNan 0.01 o.ratioNoise ∧
    RealOption atof argv "-colmin" (fun _ => True) 0.5 o.colMin ∧
    RealOption atof argv "-colmax" (fun _ => True) 0.9 o.colMax := by
  unfold benchOpts at h
  simp only [bind, Except.bind, pure, Except.pure] at h
  split at h
  · cases h
  split at h
  · cases h
  split at h
  · cases h
  split at h
  · cases h
  split at h
  · cases h
  split at h
  · cases h
  split at h
  · cases h
  rename_i pp hpp _ dim hdim _ mi hmi _ s hs _ R hR _ sp hsp _ rp hrp
  injection h with h
  subst h
  have hs0 : 0 ≤ s := optValid (optCongr (intOpt_value hs) (v' := (0 ≤ ·)) (by intro a; exact not_lt)) (by norm_num)
  have htd : Int.tdiv s 2 = s / 2 := Int.tdiv_eq_ediv_of_nonneg hs0
  rw [htd] at hR
  have hn : ∀ a : ℤ, ¬ a < 0 ↔ 0 ≤ a := fun a => not_lt
  have h01 : ∀ a : ℤ, ¬ (a < 0 ∨ a > 1) ↔ a = 0 ∨ a = 1 := fun a => by omega
  exact ⟨modelOpt_head argv, optCongr (intOpt_value hpp) h01, optCongr (intOpt_value hdim) hn, optCongr (intOpt_value hmi) hn,
    optCongr (intOpt_value hs) hn,
    optCongr (intOpt_value hR) (fun a => by change ¬ (a < 0 ∨ a > s) ↔ 0 ≤ a ∧ a ≤ s; omega), optCongr (intOpt_value hsp) h01, optCongr (intOpt_value hrp) hn,
    optCongr (dblOpt_value _ _ _ _ _) not_notUnit,
    optCongr (dblOpt_value _ _ _ _ _) not_notUnit, optCongr (dblOpt_value _ _ _ _ _) not_negative,
    optCongr (dblOpt_value _ _ _ _ _) not_negative, optCongr (dblOpt_value _ _ _ _ _) not_negative,
    optCongr (dblOpt_value _ _ _ _ _) not_negative, optCongr (dblOpt_value _ _ _ (fun _ => False) _) (fun _ => not_false_iff),
    optCongr (dblOpt_value _ _ _ (fun _ => False) _) (fun _ => not_false_iff)⟩

section CP

variable {N : ℕ} {dims : Fin N → ℕ} {R : ℕ} {V : Tensor ℝ} {W G F : List (Tensor ℝ)} {kn : Kern ℝ}

theorem ppSweeps_append (a b : List PPEv) : ppSweeps (a ++ b) = ppSweeps a + ppSweeps b := by
  unfold ppSweeps
  exact List.countP_append

/-- What a PP repetition computes, with `g0` the norm of the gradient passed in, `t1`, `t2` the results of one and two sweeps
with the operators built at `W`, `g1` the gradient norm after the first. -/
structure PPRep (same : Bool) (N R : ℕ) (lam ratio : ℝ) (kn : Kern ℝ) (V : Tensor ℝ) (tol timelimit : ℝ) (clock : ℕ → ℝ)
    (W G : List (Tensor ℝ)) (g0 g1 : ℝ) (ops : Cache ℝ) (t1 t2 : PPState ℝ) (r : PPRun CPPPState) (ret : Bool) : Prop where
  hg0 : gradnorm G N = .ok g0
  hops : ppOperators same N V W = .ok ops
  ht1 : ppSweep N R lam ratio kn ops W ⟨W, G, W.map zerosLike⟩ = .ok t1
  hg1 : gradnorm t1.G N = .ok g1
  ht2 : ppSweep N R lam ratio kn ops W t1 = .ok t2
  small : g0 < tol → r.st.W = W ∧ r.st.G = G ∧ ppSweeps r.trace = 0
  one : tol ≤ g0 → clock 0 ≤ timelimit → (g1 < tol ∨ timelimit < clock 1) →
    r.st.W = t1.W ∧ r.st.G = t1.G ∧ ppSweeps r.trace = 1 ∧ ret = false
  two : tol ≤ g0 → clock 0 ≤ timelimit → tol ≤ g1 → clock 1 ≤ timelimit →
    r.st.W = t2.W ∧ r.st.G = t2.G ∧ ppSweeps r.trace = 2 ∧ ret = true
  most : ppSweeps r.trace ≤ 2

/-- **C63 (a PP repetition).** -/
theorem C63_pp_repetition (h4 : 4 ≤ N) (h5 : N ≠ 5) (h9 : N ≤ 9) (same : Bool) (lam ratio tolInit : ℝ) (hk : KernOk kn)
    (hW : Shaped dims R V W) (hG : G.length = N) {c : PPCfg} (hb : c.bench = true) (hm : c.maxiter = 1) (hr : c.resprint ≠ 0)
    (ht : c.tol < 10) (clock : ℕ → ℝ) {fuel : ℕ} (hf : 3 < fuel) :
    ∃ g0 g1 ops t1 t2 r ret, alsCPPP same N R lam ratio tolInit kn V c clock fuel W G = .ok (r, ret) ∧
      PPRep same N R lam ratio kn V c.tol c.timelimit clock W G g0 g1 ops t1 t2 r ret ∧
      Shaped dims R V r.st.W ∧ r.st.G.length = N ∧ t1.G.length = N := by
  obtain ⟨tk, tol, tl, mi, rp, b⟩ := c
  simp only at hb hm hr ht
  subst hb hm
  obtain ⟨ops, o1, o2⟩ := ppOperators_ok (by omega) h9 same hW
  have hz := zeros_shape hW
  have hzz : (W.map zerosLike).map zerosLike = W.map zerosLike := by
    rw [List.map_map]; rfl
  obtain ⟨t1, a1, a2⟩ := ppSweep_shape (lam := lam) (ratio := ratio) (by omega) o2 hW (s := ⟨W, G, W.map zerosLike⟩) ⟨hW, hG, hz⟩ hk
  obtain ⟨t2, b1, b2⟩ := ppSweep_shape (lam := lam) (ratio := ratio) (by omega) o2 hW a2 hk
  set h := cpPPHooks same N R lam ratio tolInit kn V with hh
  let mk : PPState ℝ → CPPPState := fun t => ⟨t.W, t.G, t.dW, [], W, ops⟩
  have hbegin : ∀ dW Wi oo, dW = W.map zerosLike → h.ppBegin ⟨W, G, dW, [], Wi, oo⟩ = .ok (mk ⟨W, G, W.map zerosLike⟩) := by
    rintro dW Wi oo rfl
    simp only [hh, cpPPHooks, o1, bind, Except.bind, hzz]
    rfl
  have hsw1 : h.ppSweep (mk ⟨W, G, W.map zerosLike⟩) = .ok (mk t1) := by
    simp only [hh, cpPPHooks, mk, a1, bind, Except.bind]
    rfl
  have hsw2 : h.ppSweep (mk t1) = .ok (mk t2) := by
    simp only [hh, cpPPHooks, mk, bind, Except.bind]
    rw [show (⟨t1.W, t1.G, t1.dW⟩ : PPState ℝ) = t1 from rfl, b1]
    rfl
  obtain ⟨g0, d0, c0, e0⟩ := cp_check (by omega) (by omega) (s := mk ⟨W, G, W.map zerosLike⟩) (dims := dims) (R := R) (V := V)
    (same := same) (lam := lam) (ratio := ratio) (tolInit := tolInit) (k := kn) ⟨hW, hG, hz⟩
  obtain ⟨g1, d1, c1, e1⟩ := cp_check (by omega) (by omega) (s := mk t1) (dims := dims) (R := R) (V := V)
    (same := same) (lam := lam) (ratio := ratio) (tolInit := tolInit) (k := kn) ⟨a2.W, a2.G, a2.dW⟩
  rw [← hh] at e0 e1
  obtain ⟨fuel, rfl⟩ : ∃ f, fuel = f + 4 := ⟨fuel - 4, by omega⟩
  let c : PPCfg := ⟨false, tol, tl, 1, rp, true⟩
  have hacc : ∀ s, h.accept s = .ok s := fun s => rfl
  have hend : ∀ s, h.endRound s = s := fun s => rfl
  have hchk0 : ppChecked c 0 0 := .inr rfl
  have hchk1 : ∀ i, ppChecked c i 1 := fun i => .inl (by unfold dtChecked; simp [c])
  -- results of the runs
  have hdrv : ∀ r, ppDriverLoop c h clock (fuel + 4) (fuel + 4) ⟨0, 10, 0, ⟨W, G, W.map zerosLike, [], [], []⟩, []⟩ = .ok r →
      alsCPPP same N R lam ratio tolInit kn V ⟨tk, tol, tl, 1, rp, true⟩ clock (fuel + 4) W G = .ok (r, decide (¬ (r.iter : ℤ) = 1 + 1)) := by
    intro r e
    unfold alsCPPP ppDriver
    rw [e]
    rfl
  have hsub0 := ppSubLoop_step (c := c) (h := h) (clock := clock) (init := 0) (fuel := fuel + 3)
    (r := ⟨0, 10, 0, ⟨W, G, W.map zerosLike, [], [], []⟩, []⟩) (r1 := ⟨0, 10, 0, mk ⟨W, G, W.map zerosLike⟩, [] ++ [.ppStart]⟩)
    (g := g0) (d := d0) rfl rfl (by simp [c]) (.inl rfl) hr hchk0 (by
      unfold ppEnter
      rw [if_pos rfl]
      simp only [hbegin _ _ _ rfl, bind, Except.bind]
      rfl) e0 (hacc _)
  simp only at hsub0
  have hgo : ∀ n r, ppSubLoop c h clock 0 (fuel + 4) ⟨0, 10, 0, ⟨W, G, W.map zerosLike, [], [], []⟩, []⟩ = .ok r →
      ppDriverLoop c h clock (fuel + 4) (n + 1) ⟨0, 10, 0, ⟨W, G, W.map zerosLike, [], [], []⟩, []⟩ =
        ppDriverLoop c h clock (fuel + 4) n r := by
    intro n r e
    conv_lhs => unfold ppDriverLoop
    rw [if_pos ⟨ht, by simp [c]⟩]
    simp only [c, if_true, bind, Except.bind] at e ⊢
    rw [e]
    simp only [hend]
  have hstop : ∀ n (r : PPRun CPPPState), (1 < (r.iter : ℤ) ∨ r.grad ≤ tol) → ppDriverLoop c h clock (fuel + 4) (n + 1) r = .ok r := by
    intro n r hs
    unfold ppDriverLoop
    rw [if_neg]
    rintro ⟨x1, x2⟩
    rcases hs with hs | hs
    · simp only [c] at x2; omega
    · simp only [c] at x1; linarith
  by_cases hg0 : g0 < tol
  · have e := hsub0.1 (.inl hg0)
    refine ⟨g0, g1, ops, t1, t2, _, _, hdrv _ ((hgo _ _ e).trans (hstop _ _ (.inr hg0.le))), ?_, hW, hG, a2.G⟩
    exact ⟨c0, o1, a1, c1, b1, fun _ => ⟨rfl, rfl, rfl⟩, fun h => by linarith, fun h => by linarith, by simp [ppSweeps]⟩
  by_cases hk0 : tl < clock 0
  · have e := hsub0.1 (.inr hk0)
    by_cases heq : g0 ≤ tol
    · refine ⟨g0, g1, ops, t1, t2, _, _, hdrv _ ((hgo _ _ e).trans (hstop _ _ (.inr heq))), ?_, hW, hG, a2.G⟩
      exact ⟨c0, o1, a1, c1, b1, fun h => absurd h hg0, fun _ h => by linarith, fun _ h => by linarith, by simp [ppSweeps]⟩
    · have hst1 := ppSubLoop_step (c := c) (h := h) (clock := clock) (init := 1) (fuel := fuel + 3)
        (r := ⟨1, g0, 1, mk ⟨W, G, W.map zerosLike⟩, [] ++ [.ppStart] ++ [.row 0 g0 true d0]⟩)
        (r1 := ⟨1, g0, 1, mk ⟨W, G, W.map zerosLike⟩, [] ++ [.ppStart] ++ [.row 0 g0 true d0] ++ [.ppStart]⟩)
        (g := g0) (d := d0) rfl rfl (by simp [c]) (.inl rfl) hr (hchk1 1) (by
          unfold ppEnter
          rw [if_pos rfl]
          simp only [mk, hbegin _ _ _ rfl, bind, Except.bind]
          rfl) e0 (hacc _)
      simp only at hst1
      have hgo1 : ∀ n r, ppSubLoop c h clock 1 (fuel + 4) ⟨1, g0, 1, mk ⟨W, G, W.map zerosLike⟩, [] ++ [.ppStart] ++ [.row 0 g0 true d0]⟩ = .ok r →
          ppDriverLoop c h clock (fuel + 4) (n + 1) ⟨1, g0, 1, mk ⟨W, G, W.map zerosLike⟩, [] ++ [.ppStart] ++ [.row 0 g0 true d0]⟩ =
            ppDriverLoop c h clock (fuel + 4) n r := by
        intro n r e
        conv_lhs => unfold ppDriverLoop
        rw [if_pos ⟨not_le.1 heq, by simp [c]⟩]
        simp only [c, if_true, bind, Except.bind] at e ⊢
        rw [e]
        simp only [hend]
      by_cases hk1 : tl < clock 1
      · have e' := hst1.1 (.inr hk1)
        refine ⟨g0, g1, ops, t1, t2, _, _, hdrv _ ((hgo _ _ e).trans ((hgo1 _ _ e').trans (hstop _ _ (.inl (by norm_num))))), ?_, hW, hG, a2.G⟩
        exact ⟨c0, o1, a1, c1, b1, fun h => absurd h hg0, fun _ h => by linarith, fun _ h => by linarith, by simp [ppSweeps]⟩
      · have e' := hst1.2 (by simp only [c]; rintro (x | x); exact hg0 x; exact hk1 x) _ hsw1
        have e2 : ppSubLoop c h clock 1 (fuel + 3) ⟨2, g0, 2, mk t1, [] ++ [.ppStart] ++ [.row 0 g0 true d0] ++ [.ppStart] ++
            [.row 1 g0 true d0] ++ [.ppSweep]⟩ = .ok ⟨3, g0, 2, mk t1, [] ++ [.ppStart] ++ [.row 0 g0 true d0] ++ [.ppStart] ++
            [.row 1 g0 true d0] ++ [.ppSweep]⟩ := by
          unfold ppSubLoop
          rw [if_neg (by simp [c])]
          rfl
        refine ⟨g0, g1, ops, t1, t2, _, _, hdrv _ ((hgo _ _ e).trans ((hgo1 _ _ (e'.trans e2)).trans (hstop _ _ (.inl (by norm_num))))),
          ?_, a2.W, a2.G, a2.G⟩
        exact ⟨c0, o1, a1, c1, b1, fun h => absurd h hg0, fun _ h => by linarith, fun _ h => by linarith, by simp [ppSweeps]⟩
  · have e := hsub0.2 (by simp only [c]; rintro (x | x); exact hg0 x; exact hk0 x) _ hsw1
    have hst1 := ppSubLoop_step (c := c) (h := h) (clock := clock) (init := 0) (fuel := fuel + 2)
        (r := ⟨1, g0, 1, mk t1, [] ++ [.ppStart] ++ [.row 0 g0 true d0] ++ [.ppSweep]⟩)
        (r1 := ⟨1, g0, 1, mk t1, [] ++ [.ppStart] ++ [.row 0 g0 true d0] ++ [.ppSweep]⟩)
        (g := g1) (d := d1) rfl rfl (by simp [c]) (.inr (by norm_num)) hr (hchk1 0) (by
          unfold ppEnter
          rw [if_neg (by norm_num)]) e1 (hacc _)
    simp only at hst1
    by_cases hs1 : g1 < tol ∨ tl < clock 1
    · have e' := hst1.1 hs1
      refine ⟨g0, g1, ops, t1, t2, _, _, hdrv _ ((hgo _ _ (e.trans e')).trans (hstop _ _ (.inl (by norm_num)))), ?_, a2.W, a2.G, a2.G⟩
      refine ⟨c0, o1, a1, c1, b1, fun h => absurd h hg0, fun _ _ _ => ⟨rfl, rfl, rfl, by simp⟩, fun _ _ h h' => ?_, by simp [ppSweeps]⟩
      rcases hs1 with x | x <;> linarith
    · have e' := hst1.2 hs1 _ hsw2
      have e2 : ppSubLoop c h clock 0 (fuel + 2) ⟨2, g1, 2, mk t2, [] ++ [.ppStart] ++ [.row 0 g0 true d0] ++ [.ppSweep] ++
          [.row 1 g1 true d1] ++ [.ppSweep]⟩ = .ok ⟨3, g1, 2, mk t2, [] ++ [.ppStart] ++ [.row 0 g0 true d0] ++ [.ppSweep] ++
          [.row 1 g1 true d1] ++ [.ppSweep]⟩ := by
        unfold ppSubLoop
        rw [if_neg (by simp [c])]
        rfl
      refine ⟨g0, g1, ops, t1, t2, _, _, hdrv _ ((hgo _ _ (e.trans (e'.trans e2))).trans (hstop _ _ (.inl (by norm_num)))), ?_, b2.W, b2.G, a2.G⟩
      exact ⟨c0, o1, a1, c1, b1, fun h => absurd h hg0, fun _ _ h => absurd h hs1, fun _ _ _ _ => ⟨rfl, rfl, rfl, by simp⟩,
        by simp [ppSweeps]⟩

/-- **C63 (a PP repetition, large tolerance).** `gradnorm` starts at 10: with `tol >= 10` nothing is computed at all. -/
theorem C63_pp_idle (same : Bool) (lam ratio tolInit : ℝ) {c : PPCfg} (ht : 10 ≤ c.tol) (clock : ℕ → ℝ) {fuel : ℕ} (hf : 0 < fuel) :
    ∃ r ret, alsCPPP same N R lam ratio tolInit kn V c clock fuel W G = .ok (r, ret) ∧ r.trace = [] ∧ r.st.W = W ∧ r.st.G = G := by
  obtain ⟨fuel, rfl⟩ : ∃ f, fuel = f + 1 := ⟨fuel - 1, by omega⟩
  unfold alsCPPP ppDriver ppDriverLoop
  rw [if_neg (by simp only [not_and, not_le]; intro h; linarith)]
  exact ⟨_, _, rfl, rfl, rfl, rfl⟩

/-- What a repetition of the dimension tree benchmark computes: `g0` is the norm of the gradient matrices passed in, `f1`, `f2` are
the results of one and two ALS sweeps from `W`, `g1` the gradient norm stored by the first. -/
structure DTRep (N : ℕ) (tol timelimit : ℝ) (clock : ℕ → ℝ) (W G : List (Tensor ℝ)) (f1 f2 : Fac ℝ) (g0 g1 : ℝ) (r : LLEnd (Fac ℝ)) :
    Prop where
  hg0 : gradnorm G N = .ok g0
  hg1 : gradnorm f1.G N = .ok g1
  none : (g0 < tol ∨ timelimit < clock 0) → r.st = ⟨W, G⟩ ∧ r.iter = 0
  one : ¬ (g0 < tol ∨ timelimit < clock 0) → (g1 < tol ∨ timelimit < clock 1) → r.st = f1 ∧ r.iter = 1
  two : ¬ (g0 < tol ∨ timelimit < clock 0) → ¬ (g1 < tol ∨ timelimit < clock 1) → r.st = f2 ∧ r.iter = 2

theorem dt_repetition (h4 : 4 ≤ N) (h5 : N ≠ 5) (hN : N ≤ 18) (hF : Shaped dims R V F) (hW : Shaped dims R V W) (hG : G.length = N)
    (lam : ℝ) (solve : Spec.Solver ℝ) {a : LLArgs} (hm : a.maxiter = 1) (hres : a.resprint ≠ 0) (clock : ℕ → ℝ) {fuel : ℕ}
    (hf : 2 < fuel) {f1 f2 : Fac ℝ} (hf1 : f1.G.length = N) (h1 : ∃ G', G'.length = N ∧ legacySweep N R lam solve V F ⟨W, G'⟩ = .ok f1)
    (h2 : legacySweep N R lam solve V F f1 = .ok f2) :
    ∃ g0 g1 r, alsCPDT N R lam solve V F a clock fuel ⟨W, G⟩ = .ok r ∧ DTRep N a.tol a.timelimit clock W G f1 f2 g0 g1 r ∧
      Shaped dims R V r.st.W ∧ r.st.G.length = N := by
  obtain ⟨r, tr, g, r1, r2, r3, r4, r5, -⟩ := C48_cp_dt h4 h5 hN hF (f := ⟨W, G⟩) hW hG lam solve (a := a) (by omega) hres clock
    (fuel := fuel) (by rw [hm]; norm_num; omega)
  obtain ⟨G', hG', h1⟩ := h1
  have ht0 : tr 0 = ⟨W, G⟩ := by
    have := r2 0
    simp only [iterM] at this
    exact (Except.ok.inj this).symm
  obtain ⟨f1', s1, s2, s3⟩ := legacySweep_shape h4 h5 (by omega) hF (f := ⟨W, G⟩) hW hG lam solve
  have hff : f1' = f1 := legacySweep_indep hG hG' s3 hf1 s1 h1
  subst hff
  obtain ⟨f2', u1, u2, u3⟩ := legacySweep_shape h4 h5 (by omega) hF (f := f1') s2 s3 lam solve
  rw [h2] at u1
  cases u1
  have ht1 : tr 1 = f1' := by
    have := r2 1
    simp only [iterM, bind, Except.bind, s1] at this
    exact (Except.ok.inj this).symm
  have ht2 : tr 2 = f2 := by
    have := r2 2
    simp only [iterM, bind, Except.bind, s1, h2] at this
    exact (Except.ok.inj this).symm
  have hstop : ∀ k : ℕ, k ≤ 1 → ((g k < a.tol ∨ a.timelimit < clock k) → (Int.tmod (k : ℤ) a.resprint = 0 ∨ (k : ℤ) = a.maxiter) ∧
      (g k < a.tol ∨ a.timelimit < clock k)) := by
    intro k hk h
    refine ⟨?_, h⟩
    rw [hm]
    interval_cases k
    · left; simp
    · right; rfl
  have hb := r5.bound
  rw [hm] at hb
  have hstay : ∀ j, ¬ (g j < a.tol ∨ a.timelimit < clock j) → ¬ r.iter = j ∨ ¬ (j ≤ 1) := by
    intro j hj
    by_contra hc
    push Not at hc
    have hne : ¬ r.ret = false := fun e => by
      have := r5.no.1 e
      omega
    have := (r5.yes.1 (by simpa using hne)).2
    rw [hc.1] at this
    exact hj this.2
  have h01 := r4 0
  have h11 := r4 1
  rw [ht0] at h01
  rw [ht1] at h11
  have hcase : r.iter = 0 ∨ r.iter = 1 ∨ r.iter = 2 := by omega
  refine ⟨g 0, g 1, r, r1, ⟨h01, h11, fun h => ?_, fun h h' => ?_, fun h h' => ?_⟩, ?_, ?_⟩
  · have hi : r.iter = 0 := by
      by_contra hne
      exact r5.before 0 (by omega) (hstop 0 (by omega) h)
    exact ⟨by rw [r3, hi, ht0], hi⟩
  · have n0 := hstay 0 h
    have hi : r.iter = 1 := by
      by_contra hne
      exact r5.before 1 (by omega) (hstop 1 (by omega) h')
    exact ⟨by rw [r3, hi, ht1], hi⟩
  · have n0 := hstay 0 h
    have n1 := hstay 1 h'
    have hi : r.iter = 2 := by omega
    exact ⟨by rw [r3, hi, ht2], hi⟩
  · rcases hcase with h | h | h
    · rw [r3, h, ht0]; exact hW
    · rw [r3, h, ht1]; exact s2
    · rw [r3, h, ht2]; exact u2
  · rcases hcase with h | h | h
    · rw [r3, h, ht0]; exact hG
    · rw [r3, h, ht1]; exact s3
    · rw [r3, h, ht2]; exact u3

/-- The tensor classes pp_bench.cxx knows. -/
def BenchKind (o : Opts) : Prop :=
  tensorKind o.tensor ∈ [TensorKind.poisson, .poisson2, .collinear, .random, .random2]

theorem benchTensor_eq {E : MainEnv} {o : Opts} (h : BenchKind o) : benchTensor E o = mainTensor E o := by
  unfold BenchKind at h
  unfold benchTensor
  cases hk : tensorKind o.tensor <;> rw [hk] at h <;> first | rfl | simp at h

/-- What the CP benchmarks compute.  `Gd i`, `Gp i` are the gradient matrices at the start of repetition `i` of the two
benchmarks, `d i`, `p i` what the repetition left; all repetitions start from the same factors. -/
structure BenchCP (E : MainEnv) (o : Opts) (dims : Fin N → ℕ) (V : Tensor ℝ) (clkD clkP : ℕ → ℕ → ℝ) (Gd Gp : ℕ → List (Tensor ℝ))
    (d : ℕ → LLEnd (Fac ℝ)) (p : ℕ → PPRun CPPPState × Bool) (F : List (Tensor ℝ)) (f1 f2 : Fac ℝ) (ops : Cache ℝ)
    (t1 t2 : PPState ℝ) : Prop where
  zero : ∀ j, ∀ x < dims j, ∀ q < o.R.toNat, mats F j x q = 0
  sweep1 : legacySweep N o.R.toNat o.lambda.toReal E.solve V F ⟨fillMats (List.ofFn dims) o.R.toNat E.w0, Gd 0⟩ = .ok f1
  sweep2 : legacySweep N o.R.toNat o.lambda.toReal E.solve V F f1 = .ok f2
  d0 : Gd 0 = fillMats (List.ofFn dims) o.R.toNat E.g0
  dNext : ∀ i, Gd (i + 1) = (d i).st.G
  dt : ∀ i, ∃ g0 g1, DTRep N (o.tol.toReal * norm2 V) o.timelimit.toReal (clkD i) (fillMats (List.ofFn dims) o.R.toNat E.w0) (Gd i)
    f1 f2 g0 g1 (d i)
  p0 : Gp 0 = Gd o.maxiter.toNat
  pNext : ∀ i, Gp (i + 1) = (p i).1.st.G
  pp : o.tol.toReal * norm2 V < 10 → ∀ i, ∃ g0 g1, PPRep E.same N o.R.toNat o.lambda.toReal o.magni.toReal E.kern V
    (o.tol.toReal * norm2 V) o.timelimit.toReal (clkP i) (fillMats (List.ofFn dims) o.R.toNat E.w0) (Gp i) g0 g1 ops t1 t2
    (p i).1 (p i).2
  idle : 10 ≤ o.tol.toReal * norm2 V → ∀ i, (p i).1.trace = [] ∧
    (p i).1.st.W = fillMats (List.ofFn dims) o.R.toNat E.w0 ∧ (p i).1.st.G = Gp i

/-- **C63 (`-model CP`).** For every command line with `-resprint` not 0, every tensor pp_bench.cxx can build of order 4, 6, 7, 8 or 9,
all random numbers, kernels satisfying their contracts and *any* clock: the benchmark ends; both parts do `maxiter` repetitions
whatever `-pp` says; every repetition starts from the same factors and is a prefix of the same two sweeps (`BenchCP`). -/
theorem C63_cp {E : MainEnv} {o : Opts} {atof : CStr → F64} {argv : List CStr} (ho : benchOpts atof argv = .ok o)
    (hf : o.Finite) (hr : o.resprint ≠ 0) (hin : InputOk E o) (hbk : BenchKind o) (hd : MainDims o dims) (h4 : 4 ≤ N) (h5 : N ≠ 5) (h9 : N ≤ 9)
    (hC : o.model.head? = some 'C') (hk : KernOk E.kern) (clkD clkP : ℕ → ℕ → ℝ) {fuel : ℕ} (hfu : 3 < fuel) :
    ∃ V, benchTensor E o = .ok V ∧ InputSpec E o V ∧ V.lens = List.ofFn dims ∧
      ∃ Gd Gp d p F f1 f2 ops t1 t2, benchMain E clkD clkP fuel o =
          .ok (V, .cp ((List.range o.maxiter.toNat).map d) ((List.range o.maxiter.toNat).map p)) ∧
        BenchCP E o dims V clkD clkP Gd Gp d p F f1 f2 ops t1 t2 := by
  obtain ⟨V, v1, v2⟩ := C57_tensor hin
  have hV := input_lens v2 hd hin
  rw [← benchTensor_eq hbk] at v1
  refine ⟨V, v1, v2, hV, ?_⟩
  have hC' : o.model[0]? = some 'C' := by rw [← List.head?_eq_getElem?]; exact hC
  have hW := fillMats_shaped hV o.R.toNat E.w0
  have hG := fillMats_shaped hV o.R.toNat E.g0
  have hFz := fillMats_shaped hV o.R.toNat fun _ _ _ => 0
  generalize hWe : fillMats (List.ofFn dims) o.R.toNat E.w0 = W at hW
  generalize hGe : fillMats (List.ofFn dims) o.R.toNat E.g0 = G at hG
  have hFm : ∀ j, ∀ x < dims j, ∀ q < o.R.toNat, mats (fillMats (List.ofFn dims) o.R.toNat fun _ _ _ => 0) j x q = 0 :=
    fun j x hx q hq => fillMats_mats j hx hq
  generalize hFe : (fillMats (List.ofFn dims) o.R.toNat fun _ _ _ => (0 : ℝ)) = F at hFz hFm
  obtain ⟨f1, s1, s2, s3⟩ := legacySweep_shape h4 h5 (by omega) hFz (f := ⟨W, G⟩) hW hG.count o.lambda.toReal E.solve
  obtain ⟨f2, u1, u2, u3⟩ := legacySweep_shape h4 h5 (by omega) hFz (f := f1) s2 s3 o.lambda.toReal E.solve
  let a : LLArgs := ⟨o.tol.toReal * norm2 V, o.timelimit.toReal, 1, o.resprint⟩
  let c : PPCfg := ⟨false, o.tol.toReal * norm2 V, o.timelimit.toReal, 1, o.resprint, true⟩
  obtain ⟨d, Gd, Wd, d1, d2, d3, d4, d5⟩ := foldlM_chain (α := LLEnd (Fac ℝ)) (β := List (Tensor ℝ)) (γ := List (Tensor ℝ))
    (f := fun s (i : ℕ) => do
      let r ← alsCPDT N o.R.toNat o.lambda.toReal E.solve V F a (clkD i) fuel ⟨s.1, s.2.1⟩
      let D ← copyMats N r.st.W W
      pure (D, r.st.G, s.2.2 ++ [r])) (nextC := fun _ => W) (next := fun r => r.st.G)
    (Inv := fun w g => w = W ∧ g.length = N)
    (P := fun i w g r => ∃ g0 g1, DTRep N a.tol a.timelimit (clkD i) w g f1 f2 g0 g1 r) (by
      rintro i w g ⟨rfl, hg⟩
      obtain ⟨g0, g1, r, b1, b2, b3, b4⟩ := dt_repetition h4 h5 (by omega) hFz hW hg o.lambda.toReal E.solve (a := a) rfl hr (clkD i)
        (fuel := fuel) (by omega) s3 ⟨G, hG.count, s1⟩ u1
      refine ⟨r, fun l => ?_, ⟨g0, g1, b2⟩, rfl, b4⟩
      simp only [b1, bind, Except.bind, copyMats_ok b3.count hW.count]
      rfl) (c0 := W) (b0 := G) ⟨rfl, hG.count⟩
  have hWd : ∀ i, Wd i = W := fun i => (d4 i).2.1
  have hdrive : ∀ (p : ℕ → PPRun CPPPState × Bool) (x y : List (Tensor ℝ)),
      benchCPPPR E.same N o.R.toNat o.lambda.toReal o.magni.toReal o.ppResTol.toReal E.kern V c clkP fuel W o.maxiter.toNat
        (W, Gd o.maxiter.toNat, []) = .ok (x, y, (List.range o.maxiter.toNat).map p) →
      benchMain E clkD clkP fuel o = .ok (V, .cp ((List.range o.maxiter.toNat).map d) ((List.range o.maxiter.toNat).map p)) := by
    intro p x y h
    unfold benchMain
    rw [v1]
    simp only [bind, Except.bind]
    rw [benchDrive_fin hf.tol hf.timelimit]
    unfold benchDriveR
    simp only [hV, List.length_ofFn, if_pos hC', hWe, hGe, hFe, bind, Except.bind]
    have e : benchCPDTR N o.R.toNat o.lambda.toReal E.solve V F a clkD fuel W o.maxiter.toNat (W, G, []) =
      .ok (Wd o.maxiter.toNat, Gd o.maxiter.toNat, (List.range o.maxiter.toNat).map d) := d5 _
    rw [e]
    simp only
    rw [h]
    rfl
  by_cases ht : o.tol.toReal * norm2 V < 10
  · obtain ⟨p, Gp, Wp, p1, p2, p3, p4, p5⟩ := foldlM_chain (α := PPRun CPPPState × Bool) (β := List (Tensor ℝ))
      (γ := List (Tensor ℝ)) (f := fun s (i : ℕ) => do
        let r ← alsCPPP E.same N o.R.toNat o.lambda.toReal o.magni.toReal o.ppResTol.toReal E.kern V c (clkP i) fuel s.1 s.2.1
        let D ← copyMats N r.1.st.W W
        pure (D, r.1.st.G, s.2.2 ++ [r])) (nextC := fun _ => W) (next := fun r => r.1.st.G)
      (Inv := fun w g => w = W ∧ g.length = N)
      (P := fun i w g r => ∃ g0 g1 ops t1 t2, PPRep E.same N o.R.toNat o.lambda.toReal o.magni.toReal E.kern V c.tol c.timelimit (clkP i)
        w g g0 g1 ops t1 t2 r.1 r.2 ∧ t1.G.length = N) (by
        rintro i w g ⟨rfl, hg⟩
        obtain ⟨g0, g1, ops, t1, t2, r, ret, b1, b2, b3, b4, b5⟩ := C63_pp_repetition h4 h5 h9 E.same o.lambda.toReal o.magni.toReal
          o.ppResTol.toReal hk hW hg (c := c) rfl rfl hr ht (clkP i) (fuel := fuel) hfu
        refine ⟨(r, ret), fun l => ?_, ⟨g0, g1, ops, t1, t2, b2, b5⟩, rfl, b4⟩
        simp only [b1, bind, Except.bind, copyMats_ok b3.count hW.count]
        rfl) (c0 := W) (b0 := Gd o.maxiter.toNat) ⟨rfl, (d4 _).2.2⟩
    have hWp : ∀ i, Wp i = W := fun i => (p4 i).2.1
    have hpp := fun i => (p4 i).1
    choose x0 x1 ops t1 t2 hrep hlen using hpp
    have hops : ∀ i, ops i = ops 0 := by
      intro i
      have h1 := (hrep i).hops
      have h2 := (hrep 0).hops
      rw [hWp] at h1 h2
      exact Except.ok.inj (h1.symm.trans h2)
    have ht1 : ∀ i, t1 i = t1 0 := by
      intro i
      have h1 := (hrep i).ht1
      have h2 := (hrep 0).ht1
      rw [hWp, hops] at h1
      rw [hWp] at h2
      exact ppSweep_indep (p4 i).2.2 (p4 0).2.2 (hlen i) (hlen 0) h1 h2
    have ht2 : ∀ i, t2 i = t2 0 := by
      intro i
      have h1 := (hrep i).ht2
      have h2 := (hrep 0).ht2
      rw [hWp, hops, ht1] at h1
      rw [hWp] at h2
      exact Except.ok.inj (h1.symm.trans h2)
    refine ⟨Gd, Gp, d, p, F, f1, f2, ops 0, t1 0, t2 0, hdrive p _ _ (p5 _), ?_⟩
    refine ⟨hFm, by rw [hWe, d1]; exact s1, u1, by rw [d1, hGe], fun i => (d3 i).1, fun i => ?_, p1, fun i => (p3 i).1, fun _ i => ?_,
      fun h => by linarith⟩
    · have := (d4 i).1
      rw [hWd] at this
      rw [hWe]
      exact this
    · have := hrep i
      rw [hWp, hops, ht1, ht2] at this
      rw [hWe]
      exact ⟨_, _, this⟩
  · have ht := not_lt.1 ht
    obtain ⟨p, Gp, Wp, p1, p2, p3, p4, p5⟩ := foldlM_chain (α := PPRun CPPPState × Bool) (β := List (Tensor ℝ))
      (γ := List (Tensor ℝ)) (f := fun s (i : ℕ) => do
        let r ← alsCPPP E.same N o.R.toNat o.lambda.toReal o.magni.toReal o.ppResTol.toReal E.kern V c (clkP i) fuel s.1 s.2.1
        let D ← copyMats N r.1.st.W W
        pure (D, r.1.st.G, s.2.2 ++ [r])) (nextC := fun _ => W) (next := fun r => r.1.st.G)
      (Inv := fun w _ => w = W)
      (P := fun i w g r => r.1.trace = [] ∧ r.1.st.W = w ∧ r.1.st.G = g) (by
        rintro i w g rfl
        obtain ⟨r, ret, b1, b2, b3, b4⟩ := C63_pp_idle (N := N) (R := o.R.toNat) (V := V) (W := w) (G := g) (kn := E.kern) E.same
          o.lambda.toReal o.magni.toReal o.ppResTol.toReal (c := c) ht (clkP i) (fuel := fuel) (by omega)
        refine ⟨(r, ret), fun l => ?_, ⟨b2, b3, b4⟩, rfl⟩
        simp only [b1, bind, Except.bind, b3, copyMats_ok hW.count hW.count]
        rfl) (c0 := W) (b0 := Gd o.maxiter.toNat) rfl
    have hWp : ∀ i, Wp i = W := fun i => (p4 i).2
    refine ⟨Gd, Gp, d, p, F, f1, f2, [], ⟨[], [], []⟩, ⟨[], [], []⟩, hdrive p _ _ (p5 _), ?_⟩
    refine ⟨hFm, by rw [hWe, d1]; exact s1, u1, by rw [d1, hGe], fun i => (d3 i).1, fun i => ?_, p1, fun i => (p3 i).1,
      fun h => by linarith, fun _ i => ?_⟩
    · have := (d4 i).1
      rw [hWd] at this
      rw [hWe]
      exact this
    · have := (p4 i).1
      rw [hWp] at this
      rw [hWe]
      exact this

/-- **C63 (the repetitions repeat).** If the time limit is never passed and the norms of the initial gradient matrices and of those
left by one and by two sweeps reach the tolerance, every repetition of the dimension tree benchmark performs the same two sweeps
with the same result; likewise every PP repetition. -/
theorem C63_repeats {E : MainEnv} {o : Opts} {clkD clkP : ℕ → ℕ → ℝ} {Gd Gp : ℕ → List (Tensor ℝ)}
    {d : ℕ → LLEnd (Fac ℝ)} {p : ℕ → PPRun CPPPState × Bool} {f1 f2 : Fac ℝ} {ops : Cache ℝ} {t1 t2 : PPState ℝ}
    (B : BenchCP E o dims V clkD clkP Gd Gp d p F f1 f2 ops t1 t2) (hcD : ∀ i k, clkD i k ≤ o.timelimit.toReal)
    (hcP : ∀ i k, clkP i k ≤ o.timelimit.toReal) {g0 g1 g2 : ℝ} (hg0 : gradnorm (Gd 0) N = .ok g0) (hg1 : gradnorm f1.G N = .ok g1)
    (hg2 : gradnorm f2.G N = .ok g2) (h0 : o.tol.toReal * norm2 V ≤ g0) (h1 : o.tol.toReal * norm2 V ≤ g1)
    (h2 : o.tol.toReal * norm2 V ≤ g2) :
    (∀ i, (d i).st = f2 ∧ (d i).iter = 2) ∧
    (o.tol.toReal * norm2 V < 10 → ∀ e1 e2, gradnorm t1.G N = .ok e1 → gradnorm t2.G N = .ok e2 → o.tol.toReal * norm2 V ≤ e1 →
      o.tol.toReal * norm2 V ≤ e2 → ∀ i, (p i).1.st.W = t2.W ∧ ppSweeps (p i).1.trace = 2) := by
  have hG : ∀ i, (∃ g, gradnorm (Gd i) N = .ok g ∧ o.tol.toReal * norm2 V ≤ g) ∧ (d i).st = f2 ∧ (d i).iter = 2 := by
    intro i
    have step : ∀ i, (∃ g, gradnorm (Gd i) N = .ok g ∧ o.tol.toReal * norm2 V ≤ g) → (d i).st = f2 ∧ (d i).iter = 2 := by
      rintro i ⟨g, e, hg⟩
      obtain ⟨x0, x1, r⟩ := B.dt i
      have e0 := Except.ok.inj (e.symm.trans r.hg0)
      have e1 := Except.ok.inj (hg1.symm.trans r.hg1)
      refine r.two ?_ ?_
      · rintro (h | h)
        · linarith
        · exact absurd h (not_lt.2 (hcD _ _))
      · rintro (h | h)
        · linarith
        · exact absurd h (not_lt.2 (hcD _ _))
    induction i with
    | zero => exact ⟨⟨g0, hg0, h0⟩, step 0 ⟨g0, hg0, h0⟩⟩
    | succ i ih =>
      have : ∃ g, gradnorm (Gd (i + 1)) N = .ok g ∧ o.tol.toReal * norm2 V ≤ g := by
        rw [B.dNext, ih.2.1]
        exact ⟨g2, hg2, h2⟩
      exact ⟨this, step _ this⟩
  refine ⟨fun i => (hG i).2, fun ht e1 e2 he1 he2 h3 h4 => ?_⟩
  have step : ∀ i, (∃ g, gradnorm (Gp i) N = .ok g ∧ o.tol.toReal * norm2 V ≤ g) →
      (p i).1.st.W = t2.W ∧ (p i).1.st.G = t2.G ∧ ppSweeps (p i).1.trace = 2 := by
    rintro i ⟨g, e, hg⟩
    obtain ⟨x0, x1, r⟩ := B.pp ht i
    have e0 := Except.ok.inj (e.symm.trans r.hg0)
    have e1 := Except.ok.inj (he1.symm.trans r.hg1)
    obtain ⟨a, b, c, -⟩ := r.two (by linarith) (hcP _ _) (by linarith) (hcP _ _)
    exact ⟨a, b, c⟩
  have all : ∀ i, ∃ g, gradnorm (Gp i) N = .ok g ∧ o.tol.toReal * norm2 V ≤ g := by
    intro i
    induction i with
    | zero => rw [B.p0]; exact (hG _).1
    | succ i ih =>
      rw [B.pNext, (step i ih).2.1]
      exact ⟨e2, he2, h4⟩
  intro i
  exact ⟨(step i (all i)).1, (step i (all i)).2.2⟩

/-- **C63 (violated: vacuous repetitions).** `grad_W` is not restored between the repetitions: once a repetition of the dimension tree
benchmark has left a gradient norm below `tol * ‖V‖`, every later one, and every PP repetition, stops before its first sweep and
times nothing. -/
theorem C63_vacuous {E : MainEnv} {o : Opts} {clkD clkP : ℕ → ℕ → ℝ} {Gd Gp : ℕ → List (Tensor ℝ)}
    {d : ℕ → LLEnd (Fac ℝ)} {p : ℕ → PPRun CPPPState × Bool} {f1 f2 : Fac ℝ} {ops : Cache ℝ} {t1 t2 : PPState ℝ}
    (B : BenchCP E o dims V clkD clkP Gd Gp d p F f1 f2 ops t1 t2) {i : ℕ} {g : ℝ} (hg : gradnorm (d i).st.G N = .ok g)
    (h : g < o.tol.toReal * norm2 V) :
    (∀ j, i < j → (d j).iter = 0 ∧ (d j).st.W = fillMats (List.ofFn dims) o.R.toNat E.w0) ∧
    (i < o.maxiter.toNat → o.tol.toReal * norm2 V < 10 → ∀ j, ppSweeps (p j).1.trace = 0 ∧
      (p j).1.st.W = fillMats (List.ofFn dims) o.R.toNat E.w0) := by
  have step : ∀ j, gradnorm (Gd j) N = .ok g → (d j).st = ⟨fillMats (List.ofFn dims) o.R.toNat E.w0, Gd j⟩ ∧ (d j).iter = 0 := by
    intro j e
    obtain ⟨x0, x1, r⟩ := B.dt j
    have e0 := Except.ok.inj (e.symm.trans r.hg0)
    exact r.none (.inl (by linarith))
  have all : ∀ n, gradnorm (Gd (i + 1 + n)) N = .ok g := by
    intro n
    induction n with
    | zero => rw [add_zero, B.dNext]; exact hg
    | succ n ih =>
      rw [← add_assoc, B.dNext, (step _ ih).1]
      exact ih
  have all' : ∀ j, i < j → gradnorm (Gd j) N = .ok g := by
    intro j hj
    have := all (j - (i + 1))
    rwa [show i + 1 + (j - (i + 1)) = j by omega] at this
  refine ⟨fun j hj => ⟨(step j (all' j hj)).2, by rw [(step j (all' j hj)).1]⟩, fun him ht => ?_⟩
  have hp : ∀ j, gradnorm (Gp j) N = .ok g := by
    intro j
    induction j with
    | zero => rw [B.p0]; exact all' _ him
    | succ j ih =>
      obtain ⟨x0, x1, r⟩ := B.pp ht j
      have e0 := Except.ok.inj (ih.symm.trans r.hg0)
      rw [B.pNext, (r.small (by linarith)).2.1]
      exact ih
  intro j
  obtain ⟨x0, x1, r⟩ := B.pp ht j
  have e0 := Except.ok.inj ((hp j).symm.trans r.hg0)
  obtain ⟨a, -, c⟩ := r.small (by linarith)
  exact ⟨c, a⟩

end CP

end Properties
