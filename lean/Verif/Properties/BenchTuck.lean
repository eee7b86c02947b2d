import Verif.Properties.Bench
import Verif.Properties.TuckPP
import Verif.Properties.MainNeg

/-! # C63: the Tucker benchmarks of pp_bench.cxx -/

namespace Properties

open Model Finset

variable {N : ℕ} {dims rk : Fin N → ℕ} {V : Tensor ℝ} {W : List (Tensor ℝ)} {core : Tensor ℝ} {kn : Kern ℝ}

/-- A repetition of the dimension tree benchmark: `core` is the core passed in, `W1`, `W2` result from one and two sweeps. -/
structure TuckDTRep (dims rk : Fin N → ℕ) (V : Tensor ℝ) (kn : Kern ℝ) (tol timelimit : ℝ) (clock : ℕ → ℝ) (W : List (Tensor ℝ))
    (core : Tensor ℝ) (W1 W2 : List (Tensor ℝ)) (r : LLEnd TuckState) : Prop where
  s1 : ∃ C, tuckSweepDT kn V (List.ofFn rk) W = .ok (W1, C)
  s2 : ∃ C, tuckSweepDT kn V (List.ofFn rk) W1 = .ok (W2, C)
  one : (|coreNorm dims rk V W1 - norm2 core| < tol ∨ timelimit < clock 1) → r.st.W = W1 ∧ r.iter = 1
  two : ¬ (|coreNorm dims rk V W1 - norm2 core| < tol ∨ timelimit < clock 1) → r.st.W = W2 ∧ r.iter = 2
  core : IsCore dims rk V r.st.W r.st.core

theorem tuck_dt_repetition (h4 : 4 ≤ N) (h5 : N ≠ 5) (hN : N ≤ 10) (hr : ∀ j, rk j ≤ dims j) (hS : TuckShaped dims rk V W)
    (hcore : core.lens = List.ofFn rk) (hk : SvdShape kn) {a : LLArgs} (hm : a.maxiter = 1) (hres : a.resprint ≠ 0) (clock : ℕ → ℝ)
    {fuel : ℕ} (hf : 2 < fuel) :
    ∃ W1 W2 r, alsTuckerDT kn V a clock fuel core W = .ok r ∧ TuckDTRep dims rk V kn a.tol a.timelimit clock W core W1 W2 r ∧
      TuckShaped dims rk V r.st.W := by
  obtain ⟨r, Ws, r1, r2, r3, r4, r5, r6, -⟩ := C48_tucker_dt h4 h5 hN hr hS hcore hk (a := a) (by omega) hres clock
    (fuel := fuel) (by rw [hm]; norm_num; omega)
  have hsh : ∀ n, TuckShaped dims rk V (Ws n) := by
    intro n
    induction n with
    | zero => rw [r2]; exact hS
    | succ n ih =>
      obtain ⟨C, c1⟩ := r3 n
      obtain ⟨W', C', b1, b2, -⟩ := tuckSweepDT_ok h4 h5 (by omega) hr ih hk
      rw [b1] at c1
      rw [← (Prod.mk.inj (Except.ok.inj c1)).1]
      exact b2
  have n0 : ¬ tuckDTTested a 0 := by
    unfold tuckDTTested
    rw [hm]
    simp
  have n1 : tuckDTTested a 1 := .inr (.inl rfl)
  have hl : lastNorm (tuckDTTested a) (norm2 core) (fun n => coreNorm dims rk V (Ws n)) 1 = norm2 core := by
    simp only [lastNorm, if_neg n0]
  have hb := r5.bound
  rw [hm] at hb
  have hne : r.iter ≠ 0 := by
    intro h
    have hf : ¬ r.ret = false := fun e => by
      have := r5.no.1 e
      omega
    have := (r5.yes.1 (by simpa using hf)).2
    rw [h] at this
    exact n0 this.1
  refine ⟨Ws 1, Ws 2, r, r1, ⟨by rw [← r2]; exact r3 0, r3 1, fun h => ?_, fun h => ?_, r6⟩, by rw [r4]; exact hsh _⟩
  · have hi : r.iter = 1 := by
      by_contra hc
      refine r5.before 1 (by omega) ⟨n1, ?_⟩
      simp only [hl]
      exact h
    exact ⟨by rw [r4, hi], hi⟩
  · have hi : r.iter = 2 := by
      have : r.iter ≠ 1 := by
        intro hi
        have hf : ¬ r.ret = false := fun e => by
          have := r5.no.1 e
          omega
        have := (r5.yes.1 (by simpa using hf)).2
        rw [hi] at this
        simp only [hl] at this
        exact h this.2
      omega
    exact ⟨by rw [r4, hi], hi⟩

/-- A PP repetition: `W1` results from one sweep with the operators built at `W`. -/
structure TuckPPRep (dims rk : Fin N → ℕ) (V : Tensor ℝ) (kn : Kern ℝ) (tol timelimit : ℝ) (clock : ℕ → ℝ) (W : List (Tensor ℝ))
    (core : Tensor ℝ) (W1 : List (Tensor ℝ)) (r : PPRun TuckPPState) : Prop where
  sweep : ∃ ops dW C, tuckOperators N V W = .ok ops ∧
    tuckPPSweep N kn (List.ofFn rk) ops W W (W.map zerosLike) = .ok (W1, dW, C)
  none : |coreNorm dims rk V W - norm2 core| < tol → r.st.W = W ∧ ppSweeps r.trace = 0
  one : ¬ |coreNorm dims rk V W - norm2 core| < tol → clock 0 ≤ timelimit → r.st.W = W1 ∧ ppSweeps r.trace = 1
  late : timelimit < clock 0 → r.st.W = W ∧ ppSweeps r.trace = 0
  core : IsCore dims rk V r.st.W r.st.core

/-- **C63 (a PP repetition, Tucker).** `break` at `iter == maxiter` leaves at most one PP sweep. -/
theorem C63_tucker_pp_repetition (h4 : 4 ≤ N) (h5 : N ≠ 5) (h9 : N ≤ 9) (hr : ∀ j, rk j ≤ dims j) (hW : TuckShaped dims rk V W)
    (hC : core.lens = List.ofFn rk) (hk : SvdShape kn) (hl : SvdLeading kn) (tolInit : ℝ) {c : PPCfg} (hb : c.bench = true) (hm : c.maxiter = 1)
    (hp : c.resprint ≠ 0) (ht : c.tol < 10) (clock : ℕ → ℝ) {fuel : ℕ} (hf : 3 < fuel) :
    ∃ W1 r ret, alsTuckerPP N kn V tolInit c clock fuel core W = .ok (r, ret) ∧
      TuckPPRep dims rk V kn c.tol c.timelimit clock W core W1 r ∧ TuckShaped dims rk V r.st.W := by
  obtain ⟨tk, tol, tl, mi, rp, b⟩ := c
  simp only at hb hm hp ht
  subst hb hm
  obtain ⟨m, hm'⟩ := tol_decay tolInit
  have h0 := tp_start hW hC (tolInit := tolInit) hm'
  obtain ⟨ops, o1, o2, o3⟩ := tp_ppBegin (by omega) h9 h0 (k := kn)
  obtain ⟨ops', W1, dW1, C1, a1, a2, a3, a4, -⟩ := C36_sweep (by omega) h9 hr hW hW (tzeros_shape hW) hl ⟨N - 1, by omega⟩ rfl
  simp only at o1 o2
  rw [o1] at a1
  cases a1
  have hzz : (W.map zerosLike).map zerosLike = W.map zerosLike := by
    rw [List.map_map]; rfl
  set h := tuckPPHooks N kn V with hh
  let c : PPCfg := ⟨true, tol, tl, 1, rp, true⟩
  obtain ⟨fuel, rfl⟩ : ∃ f, fuel = f + 4 := ⟨fuel - 4, by omega⟩
  -- general facts on one pass of the loop at `iter ≤ 1`
  have hpass : ∀ (init i : ℕ) (hi : i ≤ 1) (g : ℝ) (n : ℕ) (s s1 : TuckPPState) (tr : List PPEv) (f : ℕ) (tr' : List PPEv),
      ppEnter h init ⟨i, g, n, s, tr⟩ = .ok ⟨i, g, n, s1, tr'⟩ → ppChecked c init i → TPI dims rk V False m s1 →
      ∃ C d, IsCore dims rk V s1.W C ∧
        ((|coreNorm dims rk V s1.W - norm2 s1.corePrev| < tol ∨ tl < clock n ∨ i = 1) →
          ppSubLoop c h clock init (f + 1) ⟨i, g, n, s, tr⟩ = .ok ⟨i + 1, |coreNorm dims rk V s1.W - norm2 s1.corePrev|, n + 1,
            { s1 with core := C }, tr' ++ [.row i |coreNorm dims rk V s1.W - norm2 s1.corePrev| true d]⟩) ∧
        (¬ (|coreNorm dims rk V s1.W - norm2 s1.corePrev| < tol ∨ tl < clock n ∨ i = 1) → ∃ P : Tensor ℝ, P.lens = List.ofFn rk ∧
          ∀ s2, h.ppSweep { s1 with core := C, corePrev := P } = .ok s2 →
            ppSubLoop c h clock init (f + 1) ⟨i, g, n, s, tr⟩ = ppSubLoop c h clock init f ⟨i + 1,
              |coreNorm dims rk V s1.W - norm2 s1.corePrev|, n + 1, s2,
              tr' ++ [.row i |coreNorm dims rk V s1.W - norm2 s1.corePrev| true d] ++ [.ppSweep]⟩) := by
    intro init i hi g n s s1 tr f tr' he hch hI
    obtain ⟨C, c1, c2⟩ := tp_check (by omega) (by omega) hI (k := kn)
    refine ⟨C, Real.sqrt (Spec.tuckErrSq dims rk (arr V N) (mats s1.W)), c2, fun hs => ?_, fun hs => ?_⟩
    · conv_lhs => unfold ppSubLoop
      rw [if_pos (by simp only [c]; omega)]
      simp only [c, bind, Except.bind, if_true, Bool.false_or, Bool.false_eq_true, if_false, Bool.true_eq_false, beq_iff_eq,
        Bool.false_and, he, show (true == false) = false from rfl]
      unfold ppTest
      rw [if_neg hp, if_pos hch]
      simp only [bind, Except.bind]
      rw [← hh] at c1
      rw [c1]
      simp only
      rw [if_pos (by
        rcases hs with x | x | x
        · exact .inl x
        · exact .inr (.inl x)
        · exact .inr (.inr ⟨trivial, trivial, by omega⟩))]
      rfl
    · have hI' : TPI dims rk V False m { s1 with core := C } := ⟨hI.W, hI.dW, c2.1, hI.prev, False.elim, hI.small⟩
      obtain ⟨P, p1, p2, -⟩ := tp_accept (by omega) hI' (k := kn)
      refine ⟨P, p2, fun s2 e2 => ?_⟩
      conv_lhs => unfold ppSubLoop
      rw [if_pos (by simp only [c]; omega)]
      simp only [c, bind, Except.bind, if_true, Bool.false_or, Bool.false_eq_true, if_false, Bool.true_eq_false, beq_iff_eq,
        Bool.false_and, he, show (true == false) = false from rfl]
      unfold ppTest
      rw [if_neg hp, if_pos hch]
      simp only [bind, Except.bind]
      rw [← hh] at c1 p1
      rw [c1]
      simp only
      rw [if_neg (by
        rintro (x | x | ⟨-, -, x⟩)
        · exact hs (.inl x)
        · exact hs (.inr (.inl x))
        · exact hs (.inr (.inr (by omega)))), p1]
      simp only [pure, Except.pure, Bool.false_eq_true, if_false, e2]
  have hdrv : ∀ r, ppDriverLoop c h clock (fuel + 4) (fuel + 4) ⟨0, 10, 0, ⟨W, W.map zerosLike, [], [], [], core, core, tolInit⟩, []⟩ = .ok r →
      alsTuckerPP N kn V tolInit ⟨tk, tol, tl, 1, rp, true⟩ clock (fuel + 4) core W = .ok (r, decide (¬ (r.iter : ℤ) = 1 + 1)) := by
    intro r e
    unfold alsTuckerPP ppDriver
    simp only [← hh]
    rw [e]
    rfl
  have hE : ∀ s : TuckPPState, (h.endRound s).W = s.W ∧ (h.endRound s).dW = s.dW ∧
      (h.endRound s).core = s.core ∧ (h.endRound s).corePrev = s.corePrev := by
    intro s
    simp only [hh, tuckPPHooks]
    split <;> exact ⟨rfl, rfl, rfl, rfl⟩
  have hgo : ∀ n (r r' : PPRun TuckPPState), tol < r.grad → (r.iter : ℤ) ≤ 1 → ppSubLoop c h clock r.iter (fuel + 4) r = .ok r' →
      ppDriverLoop c h clock (fuel + 4) (n + 1) r = ppDriverLoop c h clock (fuel + 4) n { r' with st := h.endRound r'.st } := by
    intro n r r' hg hi e
    conv_lhs => unfold ppDriverLoop
    rw [if_pos ⟨hg, hi⟩]
    simp only [c, if_true, bind, Except.bind] at e ⊢
    rw [e]
  have hstop : ∀ n (r : PPRun TuckPPState), (1 < (r.iter : ℤ) ∨ r.grad ≤ tol) → ppDriverLoop c h clock (fuel + 4) (n + 1) r = .ok r := by
    intro n r hs
    unfold ppDriverLoop
    rw [if_neg]
    rintro ⟨x1, x2⟩
    rcases hs with hs | hs
    · simp only [c] at x2; omega
    · simp only [c] at x1; linarith
  have hent : ∀ (i : ℕ) (g : ℝ) (n : ℕ) (s : TuckPPState) (tr : List PPEv), s.W = W →
      ppEnter h i ⟨i, g, n, s, tr⟩ = .ok ⟨i, g, n, { s with Winit := W, dW := W.map zerosLike, ops := ops }, tr ++ [.ppStart]⟩ := by
    rintro i g n s tr e
    unfold ppEnter
    rw [if_pos rfl]
    simp only [hh, tuckPPHooks, e, o1, bind, Except.bind]
    rfl
  have hsw : ∀ C P : Tensor ℝ, C.lens = List.ofFn rk →
      h.ppSweep ⟨W, W.map zerosLike, [], W, ops, C, P, tolInit⟩ = .ok ⟨W1, dW1, [], W, ops, C1, P, tolInit⟩ := by
    intro C P hC
    simp only [hh, tuckPPHooks, hC, a2, bind, Except.bind]
    rfl
  have hI1 : TPI dims rk V False m ⟨W, W.map zerosLike, [], W, ops, core, core, tolInit⟩ :=
    ⟨hW, tzeros_shape hW, hC, hC, False.elim, hm'⟩
  obtain ⟨C0, d0, q1, q2, q3⟩ := hpass 0 0 (by norm_num) 10 0 ⟨W, W.map zerosLike, [], [], [], core, core, tolInit⟩
    ⟨W, W.map zerosLike, [], W, ops, core, core, tolInit⟩ [] (fuel + 3) _ (hent 0 10 0 _ [] rfl) (.inr rfl) hI1
  simp only at q1 q2 q3
  by_cases hg : |coreNorm dims rk V W - norm2 core| < tol
  · have e := q2 (.inl hg)
    refine ⟨W1, _, _, hdrv _ ((hgo _ _ _ ht (by norm_num) e).trans (hstop _ _ (.inr hg.le))), ⟨⟨ops, dW1, C1, o1, a2⟩,
      fun _ => ⟨(hE _).1, by simp [ppSweeps]⟩, fun h => absurd hg h, fun _ => ⟨(hE _).1, by simp [ppSweeps]⟩, ?_⟩, ?_⟩
    · simp only [(hE _).1, (hE _).2.2.1]; exact q1
    · simp only [(hE _).1]; exact hW
  by_cases hk0 : tl < clock 0
  · have e := q2 (.inr (.inl hk0))
    by_cases heq : |coreNorm dims rk V W - norm2 core| ≤ tol
    · refine ⟨W1, _, _, hdrv _ ((hgo _ _ _ ht (by norm_num) e).trans (hstop _ _ (.inr heq))), ⟨⟨ops, dW1, C1, o1, a2⟩,
        fun h => absurd h hg, fun _ h => by linarith, fun _ => ⟨(hE _).1, by simp [ppSweeps]⟩, ?_⟩, ?_⟩
      · simp only [(hE _).1, (hE _).2.2.1]; exact q1
      · simp only [(hE _).1]; exact hW
    · obtain ⟨E1, E2, E3, E4⟩ := hE ⟨W, W.map zerosLike, [], W, ops, C0, core, tolInit⟩
      generalize hs1 : h.endRound ⟨W, W.map zerosLike, [], W, ops, C0, core, tolInit⟩ = s1 at E1 E2 E3 E4
      simp only at E1 E2 E3 E4
      obtain ⟨m1, hm1⟩ := tol_decay s1.tolInit
      have hgo1 := hgo (fuel + 3) _ _ ht (by norm_num) e
      rw [hs1] at hgo1
      have hst : TPI dims rk V False m { s1 with Winit := W, dW := W.map zerosLike, ops := ops } := by
        have := (tp_hooks (V := V) h4 h5 h9 hr (k := kn) hk hl False m).endRound
          ⟨W, W.map zerosLike, [], W, ops, C0, core, tolInit⟩ ⟨hW, tzeros_shape hW, q1.1, hC, False.elim, hm'⟩
        rw [← hh, hs1] at this
        exact ⟨this.W, tzeros_shape hW, this.core, this.prev, False.elim, this.small⟩
      obtain ⟨C2, d2, u1, u2, -⟩ := hpass 1 1 le_rfl |coreNorm dims rk V W - norm2 core| 1 s1
        { s1 with Winit := W, dW := W.map zerosLike, ops := ops } _ (fuel + 3) _ (hent 1 _ 1 s1 _ E1) (.inr rfl) hst
      have e2 := u2 (.inr (.inr rfl))
      simp only [E1, E4] at e2 u1
      refine ⟨W1, _, _, hdrv _ (hgo1.trans ((hgo _ _ _ (not_le.1 heq) (by norm_num) e2).trans (hstop _ _ (.inl (by norm_num))))),
        ⟨⟨ops, dW1, C1, o1, a2⟩, fun h => absurd h hg, fun _ h => by linarith, fun _ => ⟨(hE _).1, by simp [ppSweeps]⟩, ?_⟩, ?_⟩
      · simp only [(hE _).1, (hE _).2.2.1]; exact u1
      · simp only [(hE _).1]; exact hW
  · obtain ⟨P, p1, p2⟩ := q3 (by rintro (x | x | x); exact hg x; exact hk0 x; cases x)
    have e := p2 _ (hsw C0 P q1.1)
    have hI2 : TPI dims rk V False m ⟨W1, dW1, [], W, ops, C1, P, tolInit⟩ := ⟨a3.shW, a3.shD, a4, p1, False.elim, hm'⟩
    obtain ⟨C2, d2, u1, u2, -⟩ := hpass 0 1 le_rfl |coreNorm dims rk V W - norm2 core| 1 ⟨W1, dW1, [], W, ops, C1, P, tolInit⟩
      ⟨W1, dW1, [], W, ops, C1, P, tolInit⟩ ([] ++ [.ppStart] ++ [.row 0 |coreNorm dims rk V W - norm2 core| true d0] ++ [.ppSweep])
      (fuel + 2) _ (by unfold ppEnter; rw [if_neg (by norm_num)]) (.inl (by unfold dtChecked; simp [c])) hI2
    have e2 := u2 (.inr (.inr rfl))
    simp only at e2 u1
    refine ⟨W1, _, _, hdrv _ ((hgo _ _ _ ht (by norm_num) (e.trans e2)).trans (hstop _ _ (.inl (by norm_num)))),
      ⟨⟨ops, dW1, C1, o1, a2⟩, fun h => absurd h hg, fun _ _ => ⟨(hE _).1, by simp [ppSweeps]⟩, fun h => absurd h hk0, ?_⟩, ?_⟩
    · simp only [(hE _).1, (hE _).2.2.1]; exact u1
    · simp only [(hE _).1]; exact a3.shW

/-- **C63 (Tucker, large tolerance).** With `tol >= 10` a PP repetition computes nothing. -/
theorem C63_tucker_pp_idle (tolInit : ℝ) {c : PPCfg} (ht : 10 ≤ c.tol) (clock : ℕ → ℝ) {fuel : ℕ} (hf : 0 < fuel) :
    ∃ r ret, alsTuckerPP N kn V tolInit c clock fuel core W = .ok (r, ret) ∧ r.trace = [] ∧ r.st.W = W ∧ r.st.core = core := by
  obtain ⟨fuel, rfl⟩ : ∃ f, fuel = f + 1 := ⟨fuel - 1, by omega⟩
  unfold alsTuckerPP ppDriver ppDriverLoop
  rw [if_neg (by simp only [not_and, not_le]; intro h; linarith)]
  exact ⟨_, _, rfl, rfl, rfl, rfl⟩

/-- What the Tucker benchmarks compute.  All repetitions start from the same random factors `W`; `Cd i`, `Cp i` are the cores
passed to repetition `i` (zero, then those left by the previous repetition); `W1`, `W2` result from one and two dimension tree
sweeps, `U1` from a PP sweep. -/
structure BenchTucker (E : MainEnv) (o : Opts) (dims : Fin N → ℕ) (V : Tensor ℝ) (clkD clkP : ℕ → ℕ → ℝ) (Cd Cp : ℕ → Tensor ℝ)
    (d : ℕ → LLEnd TuckState) (p : ℕ → PPRun TuckPPState × Bool) (W W1 W2 U1 : List (Tensor ℝ)) : Prop where
  start : ∀ j : Fin N, ∀ x < dims j, ∀ q < o.R.toNat, mats W j x q = E.w0 j x q
  shape : TuckShaped dims (fun _ => o.R.toNat) V W
  d0 : norm2 (Cd 0) = 0
  dNext : ∀ i, Cd (i + 1) = (d i).st.core
  dt : ∀ i, TuckDTRep dims (fun _ => o.R.toNat) V E.kern (o.tol.toReal * norm2 V) o.timelimit.toReal (clkD i) W (Cd i) W1 W2 (d i)
  p0 : Cp 0 = Cd o.maxiter.toNat
  pNext : ∀ i, Cp (i + 1) = (p i).1.st.core
  pp : o.tol.toReal * norm2 V < 10 → ∀ i, TuckPPRep dims (fun _ => o.R.toNat) V E.kern (o.tol.toReal * norm2 V) o.timelimit.toReal
    (clkP i) W (Cp i) U1 (p i).1
  idle : 10 ≤ o.tol.toReal * norm2 V → ∀ i, (p i).1.trace = [] ∧ (p i).1.st.W = W ∧ (p i).1.st.core = Cp i

theorem zeroT_norm {l : List ℕ} : norm2 (zeroT ℝ l) = 0 := by
  obtain ⟨N, dims, rfl⟩ : ∃ (N : ℕ) (dims : Fin N → ℕ), l = List.ofFn dims := ⟨l.length, fun j => l[j], by simp⟩
  unfold norm2
  rw [sqNorm_eq (N := N) (dims := dims) rfl]
  simp [zeroT, arr]

/-- **C63 (`-model Tucker`).** For every command line with `-resprint` not 0, every tensor pp_bench.cxx can build whose order is
`-dim` (4, 6, 7, 8 or 9; that excludes `-tensor p`), all random numbers, SVDs satisfying their contract and any clock: the benchmark ends
after `maxiter` repetitions of either part, which are as `BenchTucker` says. -/
theorem C63_tucker {E : MainEnv} {o : Opts} {atof : CStr → F64} {argv : List CStr} (ho : benchOpts atof argv = .ok o)
    (hf : o.Finite) (hr : o.resprint ≠ 0) (hin : InputOk E o) (hbk : BenchKind o) (hd : MainDims o dims) (h4 : 4 ≤ N) (h5 : N ≠ 5) (h9 : N ≤ 9)
    (hdim : o.dim = N) (hT : o.model.head? = some 'T') (hk : SvdShape E.kern) (hl : SvdLeading E.kern) (clkD clkP : ℕ → ℕ → ℝ)
    {fuel : ℕ} (hfu : 3 < fuel) :
    ∃ V, benchTensor E o = .ok V ∧ InputSpec E o V ∧ V.lens = List.ofFn dims ∧
      ∃ Cd Cp d p W W1 W2 U1, benchMain E clkD clkP fuel o =
          .ok (V, .tucker ((List.range o.maxiter.toNat).map d) ((List.range o.maxiter.toNat).map p)) ∧
        BenchTucker E o dims V clkD clkP Cd Cp d p W W1 W2 U1 := by
  obtain ⟨-, -, -, -, hs, hR, -⟩ := C63_options ho
  have hs0 : 0 ≤ o.size := optValid hs (by norm_num)
  have hR' : 0 ≤ o.R ∧ o.R ≤ o.size := optValid (v := fun x => 0 ≤ x ∧ x ≤ o.size) hR (by omega)
  obtain ⟨V, v1, v2⟩ := C57_tensor hin
  have hV := input_lens v2 hd hin
  rw [← benchTensor_eq hbk] at v1
  refine ⟨V, v1, v2, hV, ?_⟩
  have hT' : o.model[0]? = some 'T' := by rw [← List.head?_eq_getElem?]; exact hT
  have hTC : ¬ o.model[0]? = some 'C' := by rw [hT']; simp
  have hdims : ∀ j, dims j = o.size.toNat := by
    intro j
    have key : List.replicate o.dim.toNat o.size.toNat = List.ofFn dims → dims j = o.size.toNat := by
      intro e
      have : dims j ∈ List.replicate o.dim.toNat o.size.toNat := by rw [e]; exact (List.mem_ofFn' _ _).2 ⟨j, rfl⟩
      exact (List.mem_replicate.1 this).2
    unfold MainDims at hd
    unfold BenchKind at hbk
    cases hkd : tensorKind o.tensor <;> rw [hkd] at hd hbk
    · exfalso
      have := congrArg List.length (Except.ok.inj hd)
      simp only [List.length_replicate, List.length_ofFn] at this
      omega
    all_goals first | exact key (Except.ok.inj hd) | simp at hbk
  have hrk : ∀ j, (fun _ : Fin N => o.R.toNat) j ≤ dims j := fun j => by rw [hdims]; show o.R.toNat ≤ _; omega
  have hW0 := fillMats_shaped hV o.R.toNat E.w0
  have hWm : ∀ j : Fin N, ∀ x < dims j, ∀ q < o.R.toNat, mats (fillMats (List.ofFn dims) o.R.toNat E.w0) j x q = E.w0 j x q :=
    fun j x hx q hq => fillMats_mats j hx hq
  generalize hWe : fillMats (List.ofFn dims) o.R.toNat E.w0 = W at hW0 hWm
  have hW : TuckShaped dims (fun _ => o.R.toNat) V W := ⟨hW0.lensV, hW0.count, hW0.lensW⟩
  let a : LLArgs := ⟨o.tol.toReal * norm2 V, o.timelimit.toReal, 1, o.resprint⟩
  let c : PPCfg := ⟨false, o.tol.toReal * norm2 V, o.timelimit.toReal, 1, o.resprint, true⟩
  obtain ⟨C0, hC0⟩ : ∃ C0 : Tensor ℝ, C0 = zeroT ℝ (List.replicate o.dim.toNat o.R.toNat) := ⟨_, rfl⟩
  have hCl : C0.lens = List.ofFn fun _ : Fin N => o.R.toNat := by
    rw [hC0, show o.dim.toNat = N by omega]
    exact replicate_ofFn _ _
  obtain ⟨d, Cd, Wd, d1, d2, d3, d4, d5⟩ := foldlM_chain (α := LLEnd TuckState) (β := Tensor ℝ) (γ := List (Tensor ℝ))
    (f := fun s (i : ℕ) => do
      let D ← copyMats N s.1 W
      let r ← alsTuckerDT E.kern V a (clkD i) fuel s.2.1 D
      pure (r.st.W, r.st.core, s.2.2 ++ [r])) (nextC := fun r => r.st.W) (next := fun r => r.st.core)
    (Inv := fun w C => w.length = N ∧ C.lens = List.ofFn fun _ : Fin N => o.R.toNat)
    (P := fun i _ C r => ∃ W1 W2, TuckDTRep dims (fun _ => o.R.toNat) V E.kern a.tol a.timelimit (clkD i) W C W1 W2 r) (by
      rintro i w C ⟨hw, hC⟩
      obtain ⟨W1, W2, r, b1, b2, b3⟩ := tuck_dt_repetition h4 h5 (by omega) hrk hW hC hk (a := a) rfl hr (clkD i) (fuel := fuel)
        (by omega)
      refine ⟨r, fun l => ?_, ⟨W1, W2, b2⟩, b3.count, b2.core.1⟩
      simp only [bind, Except.bind, copyMats_ok hw hW.count, b1]
      rfl) (c0 := W) (b0 := C0) ⟨hW.count, hCl⟩
  have hdt := fun i => (d4 i).1
  choose W1 W2 hrep using hdt
  have hW1 : ∀ i, W1 i = W1 0 := by
    intro i
    obtain ⟨C, c1⟩ := (hrep i).s1
    obtain ⟨C', c2⟩ := (hrep 0).s1
    exact (Prod.mk.inj (Except.ok.inj (c1.symm.trans c2))).1
  have hW2 : ∀ i, W2 i = W2 0 := by
    intro i
    obtain ⟨C, c1⟩ := (hrep i).s2
    obtain ⟨C', c2⟩ := (hrep 0).s2
    rw [hW1] at c1
    exact (Prod.mk.inj (Except.ok.inj (c1.symm.trans c2))).1
  have hdrive : ∀ (p : ℕ → PPRun TuckPPState × Bool) (x : List (Tensor ℝ)) (y : Tensor ℝ),
      benchTuckPPR N E.kern V o.ppResTol.toReal c clkP fuel W o.maxiter.toNat
        (W, Cd o.maxiter.toNat, []) = .ok (x, y, (List.range o.maxiter.toNat).map p) →
      benchMain E clkD clkP fuel o = .ok (V, .tucker ((List.range o.maxiter.toNat).map d) ((List.range o.maxiter.toNat).map p)) := by
    intro p x y h
    unfold benchMain
    rw [v1]
    simp only [bind, Except.bind]
    rw [benchDrive_fin hf.tol hf.timelimit]
    unfold benchDriveR
    simp only [hV, List.length_ofFn, if_neg hTC, if_pos hT', hWe, bind, Except.bind]
    unfold benchCore
    rw [if_neg (by omega), ← hC0]
    have e : benchTuckDTR N E.kern V a clkD fuel W o.maxiter.toNat (W, C0, []) =
      .ok (Wd o.maxiter.toNat, Cd o.maxiter.toNat, (List.range o.maxiter.toNat).map d) := d5 _
    simp only
    rw [e]
    simp only
    rw [h]
    rfl
  have hdz : norm2 (Cd 0) = 0 := by rw [d1, hC0]; exact zeroT_norm
  have hdt' : ∀ i, TuckDTRep dims (fun _ => o.R.toNat) V E.kern (o.tol.toReal * norm2 V) o.timelimit.toReal (clkD i) W (Cd i)
      (W1 0) (W2 0) (d i) := by
    intro i
    have := hrep i
    rw [hW1, hW2] at this
    exact this
  by_cases ht : o.tol.toReal * norm2 V < 10
  · obtain ⟨p, Cp, Wp, p1, p2, p3, p4, p5⟩ := foldlM_chain (α := PPRun TuckPPState × Bool) (β := Tensor ℝ)
      (γ := List (Tensor ℝ)) (f := fun s (i : ℕ) => do
        let D ← copyMats N s.1 W
        let r ← alsTuckerPP N E.kern V o.ppResTol.toReal c (clkP i) fuel s.2.1 D
        pure (r.1.st.W, r.1.st.core, s.2.2 ++ [r])) (nextC := fun r => r.1.st.W) (next := fun r => r.1.st.core)
      (Inv := fun w C => w.length = N ∧ C.lens = List.ofFn fun _ : Fin N => o.R.toNat)
      (P := fun i _ C r => ∃ U1, TuckPPRep dims (fun _ => o.R.toNat) V E.kern c.tol c.timelimit (clkP i) W C U1 r.1) (by
        rintro i w C ⟨hw, hC⟩
        obtain ⟨U1, r, ret, b1, b2, b3⟩ := C63_tucker_pp_repetition h4 h5 h9 hrk hW hC hk hl o.ppResTol.toReal (c := c) rfl rfl hr ht
          (clkP i) (fuel := fuel) hfu
        refine ⟨(r, ret), fun l => ?_, ⟨U1, b2⟩, b3.count, b2.core.1⟩
        simp only [bind, Except.bind, copyMats_ok hw hW.count, b1]
        rfl) (c0 := W) (b0 := Cd o.maxiter.toNat) ⟨hW.count, (d4 _).2.2⟩
    have hpp := fun i => (p4 i).1
    choose U1 hrepP using hpp
    have hU : ∀ i, U1 i = U1 0 := by
      intro i
      obtain ⟨ops, _, _, o1, c1⟩ := (hrepP i).sweep
      obtain ⟨ops', _, _, o2, c2⟩ := (hrepP 0).sweep
      rw [o1] at o2
      cases o2
      exact (Prod.mk.inj (Except.ok.inj (c1.symm.trans c2))).1
    refine ⟨Cd, Cp, d, p, W, W1 0, W2 0, U1 0, hdrive p _ _ (p5 _), hWm, hW, hdz, fun i => (d3 i).1, hdt', p1, fun i => (p3 i).1,
      fun _ i => ?_, fun h => by linarith⟩
    have := hrepP i
    rw [hU] at this
    exact this
  · have ht := not_lt.1 ht
    obtain ⟨p, Cp, Wp, p1, p2, p3, p4, p5⟩ := foldlM_chain (α := PPRun TuckPPState × Bool) (β := Tensor ℝ)
      (γ := List (Tensor ℝ)) (f := fun s (i : ℕ) => do
        let D ← copyMats N s.1 W
        let r ← alsTuckerPP N E.kern V o.ppResTol.toReal c (clkP i) fuel s.2.1 D
        pure (r.1.st.W, r.1.st.core, s.2.2 ++ [r])) (nextC := fun r => r.1.st.W) (next := fun r => r.1.st.core)
      (Inv := fun w _ => w.length = N)
      (P := fun i _ C r => r.1.trace = [] ∧ r.1.st.W = W ∧ r.1.st.core = C) (by
        rintro i w C hw
        obtain ⟨r, ret, b1, b2, b3, b4⟩ := C63_tucker_pp_idle (N := N) (V := V) (W := W) (core := C) (kn := E.kern)
          o.ppResTol.toReal (c := c) ht (clkP i) (fuel := fuel) (by omega)
        refine ⟨(r, ret), fun l => ?_, ⟨b2, b3, b4⟩, by simp only [b3]; exact hW.count⟩
        simp only [bind, Except.bind, copyMats_ok hw hW.count, b1]
        rfl) (c0 := W) (b0 := Cd o.maxiter.toNat) hW.count
    exact ⟨Cd, Cp, d, p, W, W1 0, W2 0, [], hdrive p _ _ (p5 _), hWm, hW, hdz, fun i => (d3 i).1, hdt', p1, fun i => (p3 i).1,
      fun h => by linarith, fun _ i => (p4 i).1⟩

/-- **C63 (violated: uneven repetitions).** The core is not restored between the repetitions.  If the core norm after one sweep is
at least `tol * ‖V‖` and differs by less than that from the one after two sweeps, the first repetition performs two sweeps and every
later one a single sweep. -/
theorem C63_tucker_uneven {E : MainEnv} {o : Opts} {clkD clkP : ℕ → ℕ → ℝ} {Cd Cp : ℕ → Tensor ℝ} {d : ℕ → LLEnd TuckState}
    {p : ℕ → PPRun TuckPPState × Bool} {W1 W2 U1 : List (Tensor ℝ)}
    (B : BenchTucker E o dims V clkD clkP Cd Cp d p W W1 W2 U1) (hc : ∀ i k, clkD i k ≤ o.timelimit.toReal)
    (h1 : o.tol.toReal * norm2 V ≤ coreNorm dims (fun _ => o.R.toNat) V W1)
    (h2 : |coreNorm dims (fun _ => o.R.toNat) V W1 - coreNorm dims (fun _ => o.R.toNat) V W2| < o.tol.toReal * norm2 V) :
    ((d 0).iter = 2 ∧ (d 0).st.W = W2) ∧ ∀ i, (d (i + 1)).iter = 1 ∧ (d (i + 1)).st.W = W1 := by
  have hz := (B.dt 0).two (by
    rintro (x | x)
    · rw [B.d0, sub_zero] at x
      have := le_abs_self (coreNorm dims (fun _ => o.R.toNat) V W1)
      linarith
    · exact absurd x (not_lt.2 (hc _ _)))
  have hn : ∀ i, norm2 (Cd (i + 1)) = coreNorm dims (fun _ => o.R.toNat) V (d i).st.W := fun i => by
    rw [B.dNext]
    exact (B.dt i).core.norm
  refine ⟨⟨hz.2, hz.1⟩, fun i => ?_⟩
  induction i with
  | zero =>
    obtain ⟨a, b⟩ := (B.dt 1).one (.inl (by rw [hn 0, hz.1]; exact h2))
    exact ⟨b, a⟩
  | succ i ih =>
    obtain ⟨a, b⟩ := (B.dt (i + 2)).one (.inl (by
      rw [hn (i + 1), ih.2, sub_self, abs_zero]
      exact lt_of_le_of_lt (abs_nonneg _) h2))
    exact ⟨b, a⟩

/-- **C63 (violated).** `pp_bench -model Tucker` without `-tensor` (or with `-tensor p`) is undefined behaviour for every valid
even `-dim`: the tensor has order `dim / 2`, but the core is constructed with `dim` lengths taken from an array of `dim / 2`. -/
theorem C63_tucker_default_ub {E : MainEnv} {o : Opts} (hin : InputOk E o) (hp : tensorKind o.tensor = .poisson) (hd : 1 ≤ o.dim)
    (hT : o.model.head? = some 'T') (clkD clkP : ℕ → ℕ → ℝ) (fuel : ℕ) : benchMain E clkD clkP fuel o = .error .ub := by
  obtain ⟨V, v1, v2⟩ := C57_tensor hin
  have hbk : BenchKind o := by unfold BenchKind; rw [hp]; simp
  rw [← benchTensor_eq hbk] at v1
  have hT' : o.model[0]? = some 'T' := by rw [← List.head?_eq_getElem?]; exact hT
  have hTC : ¬ o.model[0]? = some 'C' := by rw [hT']; simp
  have hlen : V.lens.length < o.dim.toNat := by
    unfold InputSpec at v2
    rw [hp] at v2
    obtain ⟨d, e1, e2, -⟩ := v2
    rw [e2, List.length_replicate]
    omega
  unfold benchMain
  rw [v1]
  simp only [bind, Except.bind]
  unfold benchDrive benchCore
  simp only [if_neg hTC, if_pos hT', if_pos hlen, bind, Except.bind]

/-- **C63 (violated).** The tensor classes `o..` of the other programs are unknown to pp_bench.cxx: `V` stays default-constructed. -/
theorem C63_unknown_tensor {E : MainEnv} {o : Opts} (h : ¬ BenchKind o) (clkD clkP : ℕ → ℕ → ℝ) (fuel : ℕ) :
    benchMain E clkD clkP fuel o = .error .ub := by
  unfold BenchKind at h
  unfold benchMain benchTensor
  cases hk : tensorKind o.tensor <;> rw [hk] at h <;> first | rfl | simp at h

/-! ## Non-vacuity -/

theorem norm_pos_of (hV : V.lens = List.ofFn dims) {z : Fin N → ℕ} (hz : ∀ j, z j < dims j) (h : arr V N z ≠ 0) : 0 < norm2 V := by
  unfold norm2
  refine Real.sqrt_pos.2 ?_
  rw [sqNorm_eq hV]
  exact lt_of_lt_of_le (by positivity) (single_le_sum (f := fun z => arr V N z ^ 2) (fun z _ => sq_nonneg _) (Spec.mem_Box.2 hz))

theorem benchOpts_default (atof : CStr → F64) {argv : List CStr}
    (h : ∀ name ∈ ["-pp", "-dim", "-maxiter", "-size", "-rank", "-issparse", "-resprint", "-update_percentage_pp",
      "-pp_res_tol", "-lambda", "-magni", "-colmin", "-colmax", "-rationoise"], getCmdOption argv name.toList = none) :
    ∃ o, benchOpts atof argv = .ok o ∧ o.FiniteData ∧ o.dim = 8 ∧ o.maxiter = 5000 ∧ o.size = 10 ∧ o.R = 5 ∧ o.resprint = 10 ∧
      o.tensor = strOpt argv "-tensor" "p" ∧ o.model = modelOpt argv ∧ o.tol = dblOpt atof argv "-tol" notUnit 1e-10 ∧
      o.timelimit = dblOpt atof argv "-timelimit" negative 5000 := by
  have hi : ∀ (name : String) (bad : ℤ → Prop) [DecidablePred bad] (d : ℤ), getCmdOption argv name.toList = none →
      intOpt argv name bad d = .ok d := by
    intro name bad _ d hn
    unfold intOpt
    rw [hn]
  have hd : ∀ (name : String) (bad : F64 → Prop) (d : ℝ), getCmdOption argv name.toList = none →
      dblOpt atof argv name bad d = .fin d := by
    intro name bad d hn
    unfold dblOpt
    rw [hn]
  unfold benchOpts
  rw [hi "-pp" _ _ (h _ (by simp)), hi "-dim" _ _ (h _ (by simp)), hi "-maxiter" _ _ (h _ (by simp)), hi "-size" _ _ (h _ (by simp))]
  simp only [bind, Except.bind, pure, Except.pure]
  rw [hi "-rank" _ _ (h _ (by simp)), hi "-issparse" _ _ (h _ (by simp)), hi "-resprint" _ _ (h _ (by simp))]
  exact ⟨_, rfl, ⟨dblOpt_none _ "-lambda" _ _ (h _ (by simp)), dblOpt_none _ "-magni" _ _ (h _ (by simp)), dblOpt_none _ "-pp_res_tol" _ _ (h _ (by simp)),
    ⟨_, rfl⟩, dblOpt_none _ "-colmin" (fun _ => False) 0.5 (h _ (by simp)), dblOpt_none _ "-colmax" (fun _ => False) 0.9 (h _ (by simp)), dblOpt_none _ "-rationoise" _ _ (h _ (by simp))⟩, rfl, rfl, rfl, rfl, rfl, rfl, rfl, rfl, rfl⟩

/-- `pp_bench` without arguments. -/
example (atof : CStr → F64) (clkD clkP : ℕ → ℕ → ℝ) : ∃ E o V Gd Gp d p F f1 f2 ops t1 t2, benchOpts atof ["pp_bench".toList] = .ok o ∧
    benchMain E clkD clkP 4 o = .ok (V, .cp ((List.range 5000).map d) ((List.range 5000).map p)) ∧
    BenchCP E o (fun _ : Fin 4 => 100) V clkD clkP Gd Gp d p F f1 f2 ops t1 t2 := by
  obtain ⟨k, hk⟩ := exists_kernOk
  obtain ⟨o, ho, hF0, h1, h2, h3, h4, h5, h6, h7, h8, h9⟩ := benchOpts_default atof (argv := ["pp_bench".toList]) (by decide)
  have hF : o.Finite := ⟨hF0, by rw [h8]; exact dblOpt_none _ _ _ _ (by decide), by rw [h9]; exact dblOpt_none _ _ _ _ (by decide)⟩
  have h6' : o.tensor = "p".toList := by rw [h6]; decide
  obtain ⟨i1, i2⟩ := exEnv_input (k := k) (srt := fun _ => []) h6' h1 h3
  have hbk : BenchKind o := by
    unfold BenchKind
    rw [h6']
    decide
  obtain ⟨V, -, -, -, Gd, Gp, d, p, F, f1, f2, ops, t1, t2, e, B⟩ := C63_cp ho hF (by rw [h5]; norm_num) i1 hbk i2 (by norm_num) (by norm_num)
    (by norm_num) (by rw [h7]; decide) hk clkD clkP (fuel := 4) (by norm_num)
  rw [h2] at e
  exact ⟨_, o, V, Gd, Gp, d, p, F, f1, f2, ops, t1, t2, ho, e, B⟩

/-- `pp_bench -model Tucker -tensor p2`. -/
example (atof : CStr → F64) (clkD clkP : ℕ → ℕ → ℝ) : ∃ E o V Cd Cp d p W W1 W2 U1,
    benchOpts atof ["pp_bench".toList, "-model".toList, "Tucker".toList, "-tensor".toList, "p2".toList] = .ok o ∧
    benchMain E clkD clkP 4 o = .ok (V, .tucker ((List.range 5000).map d) ((List.range 5000).map p)) ∧
    BenchTucker E o (fun _ : Fin 8 => 10) V clkD clkP Cd Cp d p W W1 W2 U1 := by
  obtain ⟨k, hl, hk⟩ := exists_svdLeading
  obtain ⟨o, ho, hF0, h1, h2, h3, h4, h5, h6, h7, h8, h9⟩ := benchOpts_default atof
    (argv := ["pp_bench".toList, "-model".toList, "Tucker".toList, "-tensor".toList, "p2".toList]) (by decide)
  have hF : o.Finite := ⟨hF0, by rw [h8]; exact dblOpt_none _ _ _ _ (by decide), by rw [h9]; exact dblOpt_none _ _ _ _ (by decide)⟩
  have h6' : tensorKind o.tensor = .poisson2 := by rw [h6]; decide
  have i1 : InputOk (exEnv k fun _ => []) o := by
    unfold InputOk
    rw [h6']
    refine ⟨one_le_two, ?_, ?_, ?_⟩ <;> rw [h1] <;> norm_num
  have i2 : MainDims o (fun _ : Fin 8 => 10) := by
    unfold MainDims
    rw [h6', h1, h3]
    rfl
  have hbk : BenchKind o := by
    unfold BenchKind
    rw [h6']
    decide
  obtain ⟨V, -, -, -, Cd, Cp, d, p, W, W1, W2, U1, e, B⟩ := C63_tucker ho hF (by rw [h5]; norm_num) i1 hbk i2 (by norm_num) (by norm_num)
    (by norm_num) (by rw [h1]; rfl) (by rw [h7]; decide) hk hl clkD clkP (fuel := 4) (by norm_num)
  rw [h2] at e
  exact ⟨_, o, V, Cd, Cp, d, p, W, W1, W2, U1, ho, e, B⟩

/-- `pp_bench -model Tucker`: the default tensor. -/
example (atof : CStr → F64) (clkD clkP : ℕ → ℕ → ℝ) (fuel : ℕ) : ∃ E o,
    benchOpts atof ["pp_bench".toList, "-model".toList, "Tucker".toList] = .ok o ∧ InputOk E o ∧
    benchMain E clkD clkP fuel o = .error .ub := by
  obtain ⟨k, hk⟩ := exists_kernOk
  obtain ⟨o, ho, hF0, h1, h2, h3, h4, h5, h6, h7, h8, h9⟩ := benchOpts_default atof
    (argv := ["pp_bench".toList, "-model".toList, "Tucker".toList]) (by decide)
  have hF : o.Finite := ⟨hF0, by rw [h8]; exact dblOpt_none _ _ _ _ (by decide), by rw [h9]; exact dblOpt_none _ _ _ _ (by decide)⟩
  have h6' : o.tensor = "p".toList := by rw [h6]; decide
  obtain ⟨i1, i2⟩ := exEnv_input (k := k) (srt := fun _ => []) h6' h1 h3
  exact ⟨_, o, ho, i1, C63_tucker_default_ub i1 (by rw [h6']; decide) (by rw [h1]; norm_num) (by rw [h7]; decide) clkD clkP fuel⟩

/-- `pp_bench -tensor r2 -tol 0`: all repetitions are alike. -/
example : ∃ (atof : CStr → F64) (E : MainEnv) (o : Opts) (V : Tensor ℝ) (d : ℕ → LLEnd (Fac ℝ)) (p : ℕ → PPRun CPPPState × Bool) (f2 : Fac ℝ),
    benchOpts atof ["pp_bench".toList, "-tensor".toList, "r2".toList, "-tol".toList, "0".toList] = .ok o ∧
    benchMain E (fun _ _ => 0) (fun _ _ => 0) 4 o = .ok (V, .cp ((List.range 5000).map d) ((List.range 5000).map p)) ∧
    (∀ i, (d i).st = f2 ∧ (d i).iter = 2) ∧ ∀ i, ppSweeps (p i).1.trace = 2 := by
  obtain ⟨k, hk⟩ := exists_kernOk
  obtain ⟨o, ho, hF0, h1, h2, h3, h4, h5, h6, h7, h8, h9⟩ := benchOpts_default (fun _ => .fin 0)
    (argv := ["pp_bench".toList, "-tensor".toList, "r2".toList, "-tol".toList, "0".toList]) (by decide)
  have h6' : tensorKind o.tensor = .random2 := by rw [h6]; decide
  have ht : o.tol.toReal = 0 := by
    rw [h8]
    unfold dblOpt
    rw [show getCmdOption ["pp_bench".toList, "-tensor".toList, "r2".toList, "-tol".toList, "0".toList] "-tol".toList =
      some "0".toList by decide]
    have hn : ¬ notUnit (.fin 0) := by simp [notUnit, F64.lt]
    simp only [if_neg hn]
    rfl
  have hF : o.Finite := by
    refine ⟨hF0, ?_, by rw [h9]; exact dblOpt_none _ _ _ _ (by decide)⟩
    rw [h8]
    unfold dblOpt
    rw [show getCmdOption ["pp_bench".toList, "-tensor".toList, "r2".toList, "-tol".toList, "0".toList] "-tol".toList =
      some "0".toList by decide]
    simp only
    split_ifs
    · exact ⟨_, rfl⟩
    · exact ⟨_, rfl⟩
  have htl : o.timelimit.toReal = 5000 := by
    rw [h9]
    unfold dblOpt
    rw [show getCmdOption ["pp_bench".toList, "-tensor".toList, "r2".toList, "-tol".toList, "0".toList] "-timelimit".toList =
      none by decide]
    rfl
  have i2 : MainDims o (fun _ : Fin 8 => 10) := by
    unfold MainDims
    rw [h6', h1, h3]
    rfl
  obtain ⟨V, -, -, -, Gd, Gp, d, p, F, f1, f2, ops, t1, t2, e, B⟩ := C63_cp (E := exEnv k fun _ => []) ho hF (by rw [h5]; norm_num)
    (by unfold InputOk; rw [h6']; trivial) (by unfold BenchKind; rw [h6']; decide) i2 (by norm_num) (by norm_num)
    (by norm_num) (by rw [h7]; decide) hk (fun _ _ => 0) (fun _ _ => 0) (fuel := 4) (by norm_num)
  rw [h2] at e
  have hnn : ∀ G g, gradnorm G 8 = .ok g → o.tol.toReal * norm2 V ≤ g := by
    intro G g h
    rw [ht, zero_mul]
    unfold gradnorm at h
    simp only [bind, Except.bind] at h
    split at h
    · cases h
    · rw [← Except.ok.inj h]
      exact Real.sqrt_nonneg _
  have h10 : o.tol.toReal * norm2 V < 10 := by rw [ht]; norm_num
  obtain ⟨x0, x1, D⟩ := B.dt 0
  obtain ⟨y0, y1, P⟩ := B.pp h10 0
  have hz : gradnorm f2.G 8 = .ok x0 ∨ ∃ g, gradnorm f2.G 8 = .ok g := by
    obtain ⟨z0, z1, D1⟩ := B.dt 1
    right
    refine ⟨z0, ?_⟩
    have := D1.hg0
    rw [B.dNext, (D.two (by rw [htl]; rintro (x | x); exact absurd x (not_lt.2 (hnn _ _ D.hg0)); norm_num at x)
      (by rw [htl]; rintro (x | x); exact absurd x (not_lt.2 (hnn _ _ D.hg1)); norm_num at x)).1] at this
    exact this
  obtain ⟨g2, hg2⟩ : ∃ g, gradnorm f2.G 8 = .ok g := hz.elim (fun h => ⟨_, h⟩) id
  obtain ⟨r1, r2⟩ := C63_repeats B (by rw [htl]; intros; norm_num) (by rw [htl]; intros; norm_num) D.hg0 D.hg1 hg2 (hnn _ _ D.hg0)
    (hnn _ _ D.hg1) (hnn _ _ hg2)
  obtain ⟨z0, z1, P1⟩ := B.pp h10 1
  have hP2 := P1.hg0
  rw [B.pNext, (P.two (hnn _ _ P.hg0) (by rw [htl]; norm_num) (hnn _ _ P.hg1) (by rw [htl]; norm_num)).2.1] at hP2
  exact ⟨_, _, o, V, d, p, f2, ho, e, r1, fun i => (r2 h10 _ _ P.hg1 hP2 (hnn _ _ P.hg1) (hnn _ _ hP2) i).2⟩

/-- `pp_bench -tensor r2` with a vanishing initial gradient: nothing is ever computed. -/
example : ∃ (atof : CStr → F64) (E : MainEnv) (o : Opts) (V : Tensor ℝ) (d : ℕ → LLEnd (Fac ℝ)) (p : ℕ → PPRun CPPPState × Bool),
    benchOpts atof ["pp_bench".toList, "-tensor".toList, "r2".toList] = .ok o ∧
    benchMain E (fun _ _ => 0) (fun _ _ => 0) 4 o = .ok (V, .cp ((List.range 5000).map d) ((List.range 5000).map p)) ∧
    ∀ i, (d (i + 1)).iter = 0 := by
  obtain ⟨k, hk⟩ := exists_kernOk
  obtain ⟨o, ho, hF0, h1, h2, h3, h4, h5, h6, h7, h8, h9⟩ := benchOpts_default (fun _ => .fin 0)
    (argv := ["pp_bench".toList, "-tensor".toList, "r2".toList]) (by decide)
  have hF : o.Finite := ⟨hF0, by rw [h8]; exact dblOpt_none _ _ _ _ (by decide), by rw [h9]; exact dblOpt_none _ _ _ _ (by decide)⟩
  have h6' : tensorKind o.tensor = .random2 := by rw [h6]; decide
  have ht : o.tol.toReal = 1e-10 := by
    rw [h8]
    unfold dblOpt
    rw [show getCmdOption ["pp_bench".toList, "-tensor".toList, "r2".toList] "-tol".toList = none by decide]
    rfl
  have i2 : MainDims o (fun _ : Fin 8 => 10) := by
    unfold MainDims
    rw [h6', h1, h3]
    rfl
  obtain ⟨V, -, v2, hV, Gd, Gp, d, p, F, f1, f2, ops, t1, t2, e, B⟩ := C63_cp (E := { exEnv k (fun _ => []) with g0 := fun _ _ _ => 0 }) ho hF
    (by rw [h5]; norm_num) (by unfold InputOk; rw [h6']; trivial) (by unfold BenchKind; rw [h6']; decide) i2 (by norm_num) (by norm_num)
    (by norm_num) (by rw [h7]; decide) hk (fun _ _ => 0) (fun _ _ => 0) (fuel := 4) (by norm_num)
  rw [h2] at e
  have hpos : 0 < o.tol.toReal * norm2 V := by
    rw [ht]
    refine mul_pos (by norm_num) ?_
    refine norm_pos_of hV (z := fun _ => 0) (fun _ => Nat.succ_pos 9) ?_
    unfold InputSpec at v2
    rw [h6'] at v2
    have hf : fits V.lens (List.ofFn fun _ : Fin 8 => 0) = true := by rw [hV]; decide
    have := v2.2 _ hf
    have h1 : arr V 8 (fun _ => 0) = 1 := this
    rw [h1]
    norm_num
  have hg : gradnorm (Gd 0) 8 = .ok 0 := by
    rw [B.d0, gradnorm_eq (T := fun _ => fillM 10 o.R.toNat fun _ _ => 0) (fun j hj => by
      rw [fillMats_get (by simpa using hj)]
      congr 2
      exact List.getElem_ofFn _)]
    congr 1
    rw [Real.sqrt_eq_zero']
    refine (sum_eq_zero fun j _ => ?_).le
    rw [sqNorm_mat rfl]
    refine sum_eq_zero fun x _ => sum_eq_zero fun y _ => ?_
    simp [mat, fillM, fillT]
  obtain ⟨x0, x1, D⟩ := B.dt 0
  have hx := Except.ok.inj (hg.symm.trans D.hg0)
  have hst := (D.none (.inl (by rw [← hx]; exact hpos))).1
  exact ⟨_, _, o, V, d, p, ho, e, fun i => ((C63_vacuous B (i := 0) (by rw [hst]; exact hg) hpos).1 _ (by omega)).1⟩

end Properties
