import Verif.Proofs.Span
import Verif.Properties.TuckConverge
import Verif.Properties.Hosvd

/-! # C76: the Tucker results do not depend on the singular value decomposition used -/

namespace Properties

open Model Finset Function

variable {N : ℕ} {dims rk : Fin N → ℕ} {V : Tensor ℝ} {W : List (Tensor ℝ)}

/-- The factors `F` represent the projectors `P`; their reconstruction, the norm of their core and their error are those of `V`
projected by `P`. -/
structure SpanResult (dims rk : Fin N → ℕ) (V : Tensor ℝ) (F : List (Tensor ℝ)) (P : Fin N → ℕ → ℕ → ℝ) : Prop where
  spans : Spec.Spans dims rk (mats F) P
  recon : ∀ idx : Fin N → ℕ, (∀ j, idx j < dims j) →
    Spec.tuckRecon rk (Spec.multiTTM dims (arr V N) (mats F) ∅) (mats F) idx = Spec.spanRecon dims (arr V N) P idx
  core : Spec.coreNormSq dims rk (arr V N) (mats F) = Spec.spanNormSq dims (arr V N) P
  err : Spec.tuckErrSq dims rk (arr V N) (mats F) =
    ∑ idx ∈ Spec.Box dims, (arr V N idx - Spec.spanRecon dims (arr V N) P idx) ^ 2

theorem SpanResult.of {F : List (Tensor ℝ)} {P : Fin N → ℕ → ℕ → ℝ} (h : Spec.Spans dims rk (mats F) P) : SpanResult dims rk V F P := by
  have hr : ∀ idx : Fin N → ℕ, (∀ j, idx j < dims j) →
      Spec.tuckRecon rk (Spec.multiTTM dims (arr V N) (mats F) ∅) (mats F) idx = Spec.spanRecon dims (arr V N) P idx := by
    intro idx hi
    rw [tuckRecon_span]
    exact spanRecon_congr h hi
  refine ⟨h, hr, ?_, ?_⟩
  · rw [coreNormSq_span]
    exact spanNormSq_congr h
  · unfold Spec.tuckErrSq
    exact sum_congr rfl fun idx hi => by rw [hr idx (Spec.mem_Box.1 hi)]

theorem spans_of_best {Ws : ℕ → List (Tensor ℝ)} (hr : ∀ j, rk j ≤ dims j) (h : ∀ n, BestRun dims rk V (Ws n) (Ws (n + 1)) N)
    {P : ℕ → Fin N → ℕ → ℕ → ℝ} (h0 : Spec.Spans dims rk (mats (Ws 0)) (P 0)) {m : ℕ}
    (hP : ∀ n < m, Spec.SpanSweep dims rk (arr V N) (P n) (P (n + 1))) : ∀ n ≤ m, SpanResult dims rk V (Ws n) (P n) := by
  intro n
  induction n with
  | zero => intro _; exact .of h0
  | succ n ih => intro hn; exact .of ((h n).span hr (hP n (by omega)) (ih (by omega)).spans)

/-- **C76 (`alsTucker`).** Orders 2..10, any start.  Let `P 0, …, P m` be a run of HOOI on subspaces that starts at the products
`W_j W_jᵀ` of the starting factors, each leading eigenvalue being larger than the first one left out.  Then with *every* SVD that
returns leading singular vectors the factors after `n ≤ m` sweeps are bases of the subspaces `P n`; so the reconstruction, the norm
of the core and the error are those of `P n`, whichever basis and signs the SVD picks in any sweep. -/
theorem C76_direct (h2 : 2 ≤ N) (hN : N ≤ 10) (hr : ∀ j, rk j ≤ dims j) (hS : TuckShaped dims rk V W)
    {k : Kern ℝ} (hk : SvdShape k) (hl : SvdLeading k) {P : ℕ → Fin N → ℕ → ℕ → ℝ} (h0 : Spec.Spans dims rk (mats W) (P 0)) {m : ℕ}
    (hP : ∀ n < m, Spec.SpanSweep dims rk (arr V N) (P n) (P (n + 1))) :
    ∃ Ws : ℕ → List (Tensor ℝ), (∀ n, iterM (tuckSweep k V (List.ofFn rk)) n W = .ok (Ws n)) ∧
      ∀ n ≤ m, SpanResult dims rk V (Ws n) (P n) := by
  obtain ⟨Ws, w1, w2, w3⟩ := iterM_seq (step := tuckSweep k V (List.ofFn rk)) (P := TuckShaped dims rk V)
    (R := fun a b => BestRun dims rk V a b N) (by
      intro W hS
      obtain ⟨W', a, b, c⟩ := tuckSweep_ok h2 hN hr hS hk
      exact ⟨W', a, b, c.best hl hr le_rfl hS⟩) hS
  exact ⟨Ws, w2, spans_of_best hr (fun n => (w3 n).2) (by rw [w1]; exact h0) hP⟩

/-- **C76 (`alsTucker_DT`).** The same for the sweeps with the dimension tree, orders 4, 6..18; the stored core has the norm of the
projected tensor. -/
theorem C76_dt (h4 : 4 ≤ N) (h5 : N ≠ 5) (hN : N ≤ 18) (hr : ∀ j, rk j ≤ dims j) (hS : TuckShaped dims rk V W)
    {k : Kern ℝ} (hk : SvdShape k) (hl : SvdLeading k) (C0 : Tensor ℝ) {P : ℕ → Fin N → ℕ → ℕ → ℝ}
    (h0 : Spec.Spans dims rk (mats W) (P 0)) {m : ℕ} (hP : ∀ n < m, Spec.SpanSweep dims rk (arr V N) (P n) (P (n + 1))) :
    ∃ (Ws : ℕ → List (Tensor ℝ)) (Cs : ℕ → Tensor ℝ), Ws 0 = W ∧
      (∀ n, iterM (fun s : List (Tensor ℝ) × Tensor ℝ => tuckSweepDT k V (List.ofFn rk) s.1) n (W, C0) = .ok (Ws n, Cs n)) ∧
      ∀ n ≤ m, SpanResult dims rk V (Ws n) (P n) ∧
        (1 ≤ n → norm2 (Cs n) = Real.sqrt (Spec.spanNormSq dims (arr V N) (P n))) := by
  obtain ⟨f, w1, w2, w3⟩ := iterM_seq (s := (W, C0))
    (step := fun s : List (Tensor ℝ) × Tensor ℝ => tuckSweepDT k V (List.ofFn rk) s.1)
    (P := fun s => TuckShaped dims rk V s.1) (R := fun a b => BestRun dims rk V a.1 b.1 N ∧ IsCore dims rk V b.1 b.2) (by
      intro s hS
      obtain ⟨W', C, a, b, c, _, e⟩ := tuckSweepDT_ok h4 h5 hN hr hS hk
      refine ⟨(W', C), a, b, c.best hl hr le_rfl hS, ?_⟩
      have e' : klens dims rk ∅ = rk := by funext j; simp [klens]
      obtain ⟨e1, e2⟩ := e
      rw [e'] at e1 e2
      exact ⟨e1, e2⟩) hS
  have hres := spans_of_best (Ws := fun n => (f n).1) hr (fun n => (w3 n).2.1) (by beta_reduce; rw [w1]; exact h0) hP
  refine ⟨fun n => (f n).1, fun n => (f n).2, by simp [w1], w2, fun n hn => ⟨hres n hn, fun h1 => ?_⟩⟩
  obtain ⟨j, rfl⟩ : ∃ j, n = j + 1 := ⟨n - 1, by omega⟩
  beta_reduce
  rw [(w3 j).2.2.norm, (hres _ hn).core]

/-- **C76 (exact phase of the Tucker PP driver).** The sign alignment does not change the subspaces either. -/
theorem C76_dtsub (h4 : 4 ≤ N) (h5 : N ≠ 5) (hN : N ≤ 18) (hr : ∀ j, rk j ≤ dims j) {Wp : List (Tensor ℝ)}
    (hp : TuckShaped dims rk V Wp) (hS : TuckShaped dims rk V W) {k : Kern ℝ} (hk : SvdShape k) (hl : SvdLeading k)
    {P : ℕ → Fin N → ℕ → ℕ → ℝ} (h0 : Spec.Spans dims rk (mats W) (P 0)) {m : ℕ}
    (hP : ∀ n < m, Spec.SpanSweep dims rk (arr V N) (P n) (P (n + 1))) :
    ∃ Ws Ps : ℕ → List (Tensor ℝ),
      (∀ n, iterM (fun s : List (Tensor ℝ) × List (Tensor ℝ) => do
        let r ← tuckSweepDTsub k V (List.ofFn rk) s.1 s.2
        pure (r.1, r.1)) n (Wp, W) = .ok (Ps n, Ws n)) ∧ ∀ n ≤ m, SpanResult dims rk V (Ws n) (P n) := by
  obtain ⟨f, w1, w2, w3⟩ := iterM_seq (s := (Wp, W))
    (step := fun s : List (Tensor ℝ) × List (Tensor ℝ) => do
        let r ← tuckSweepDTsub k V (List.ofFn rk) s.1 s.2
        pure (r.1, r.1))
    (P := fun s => TuckShaped dims rk V s.1 ∧ TuckShaped dims rk V s.2)
    (R := fun a b => BestRun dims rk V a.2 b.2 N) (by
      rintro ⟨p, w⟩ ⟨hp, hw⟩
      obtain ⟨W', C, a, b, c, _⟩ := tuckSweepDTsub_ok h4 h5 hN hr hp hw hk hl
      refine ⟨(W', W'), ?_, ⟨b, b⟩, c⟩
      simp only [bind, Except.bind, pure, Except.pure]
      rw [a]) ⟨hp, hS⟩
  exact ⟨fun n => (f n).2, fun n => (f n).1, w2,
    spans_of_best (Ws := fun n => (f n).2) hr (fun n => (w3 n).2) (by beta_reduce; rw [w1]; exact h0) hP⟩

/-- **C76 (`hosvd`).** If the leading eigenvalues of the Gram matrix of every unfolding exceed the others, `hosvd` returns bases of
the leading eigenspaces `P_i`, and its core has the norm of the projected tensor, with every SVD. -/
theorem C76_hosvd (h1 : 1 ≤ N) (hN : N ≤ 18) (hV : V.lens = List.ofFn dims) (hr : ∀ j, rk j ≤ dims j) {k : Kern ℝ} (hk : SvdShape k)
    (hl : SvdLeading k) {P : Fin N → ℕ → ℕ → ℝ}
    (hP : ∀ i, Spec.LeadingProj (dims i) (rk i) (Spec.unfoldGram dims (arr V N) i) (P i)) :
    ∃ C F, hosvd k V (List.ofFn rk) = .ok (C, F) ∧ SpanResult dims rk V F P ∧
      norm2 C = Real.sqrt (Spec.spanNormSq dims (arr V N) P) := by
  obtain ⟨C, F, e1, e2, e3, e4, e5, -⟩ := C34_hosvd h1 hN hV hr hk
  have hs : Spec.Spans dims rk (mats F) P := by
    intro i
    obtain ⟨M, m1, m2, m3⟩ := e3 i
    have hp := unfoldGram_posSemidef dims (arr V N) i m2
    have hb := (hl _ _ M m1 (hr i) hp).best (hr i) hp
    have e : mats (N := N) F i = mat (k.svd M (rk i)).U := by
      funext x y
      unfold mats
      rw [m3]
    rw [e]
    refine leading_unique (hr i) (hP i) hb.1 fun A hA => ?_
    have conv : ∀ A : ℕ → ℕ → ℝ, ∑ a ∈ range (rk i), ∑ x ∈ range (dims i), ∑ y ∈ range (dims i), A x a * mat M x y * A y a =
        ∑ x ∈ range (dims i), ∑ y ∈ range (dims i), Spec.unfoldGram dims (arr V N) i x y * Spec.outer (rk i) A x y := by
      intro A
      rw [sum_comm]
      refine sum_congr rfl fun x hx => ?_
      rw [sum_comm]
      refine sum_congr rfl fun y hy => ?_
      unfold Spec.outer
      rw [m2 x (mem_range.1 hx) y (mem_range.1 hy), mul_sum]
      exact sum_congr rfl fun a _ => by ring
    rw [← conv, ← conv]
    exact hb.2 A hA
  have hres : SpanResult dims rk V F P := .of hs
  refine ⟨C, F, e1, hres, ?_⟩
  rw [IsCore.norm ⟨e4, e5⟩, hres.core]

theorem lastNorm_congr {tested : ℕ → Prop} {n0 : ℝ} {f g : ℕ → ℝ} {n : ℕ} (h : ∀ k < n, f k = g k) :
    lastNorm tested n0 f n = lastNorm tested n0 g n := by
  induction n with
  | zero => rfl
  | succ n ih =>
    unfold lastNorm
    rw [h n (by omega), ih fun k hk => h k (by omega)]

theorem firstStop_unique {stop stop' : ℕ → Prop} {maxiter : ℤ} {i i' : ℕ} {r r' : Bool} (h : FirstStop stop maxiter i r)
    (h' : FirstStop stop' maxiter i' r') (e : ∀ n : ℕ, (n : ℤ) ≤ maxiter → (stop n ↔ stop' n)) : i = i' ∧ r = r' := by
  have key : ∀ {stop stop' : ℕ → Prop} {i i' : ℕ} {r r' : Bool}, FirstStop stop maxiter i r → FirstStop stop' maxiter i' r' →
      (∀ n : ℕ, (n : ℤ) ≤ maxiter → (stop n ↔ stop' n)) → ¬ i < i' := by
    intro stop stop' i i' r r' h h' e hlt
    have hb := h'.bound
    have hi : (i : ℤ) ≤ maxiter := by omega
    cases hr : r with
    | false => have := h.no.1 hr; omega
    | true => exact h'.before i hlt ((e i hi).1 (h.yes.1 hr).2)
  have hii : i = i' := by
    have a := key h h' e
    have b := key h' h fun n hn => (e n hn).symm
    omega
  subst hii
  refine ⟨rfl, ?_⟩
  cases hr : r <;> cases hr' : r' <;> first | rfl | skip
  · have a := h.no.1 hr
    have b := (h'.yes.1 hr').1
    omega
  · have a := h'.no.1 hr'
    have b := (h.yes.1 hr).1
    omega

/-- **C76 (`alsTucker`, whole call).** Under the gap condition of `C76_direct` for `maxiter + 1` sweeps, two calls with different
SVDs and the same clock make the same number of sweeps, return the same value and leave factors with the same subspaces, hence the
same approximation of `V`. -/
theorem C76_tucker (h2 : 2 ≤ N) (hN : N ≤ 10) (hr : ∀ j, rk j ≤ dims j) (hS : TuckShaped dims rk V W) {core : Tensor ℝ}
    (hcore : core.lens = List.ofFn rk) {k k' : Kern ℝ} (hk : SvdShape k) (hl : SvdLeading k) (hk' : SvdShape k') (hl' : SvdLeading k')
    {P : ℕ → Fin N → ℕ → ℕ → ℝ} (h0 : Spec.Spans dims rk (mats W) (P 0)) (tol timelimit : ℝ) {maxiter : ℤ} (hm : 0 ≤ maxiter)
    (hP : ∀ n ≤ maxiter.toNat, Spec.SpanSweep dims rk (arr V N) (P n) (P (n + 1))) (clock : ℕ → ℝ) {fuel : ℕ}
    (hf : (maxiter + 1).toNat < fuel) :
    ∃ r r', alsTucker k V tol timelimit maxiter clock fuel core W = .ok r ∧
      alsTucker k' V tol timelimit maxiter clock fuel core W = .ok r' ∧ r.ret = r'.ret ∧ r.iter = r'.iter ∧
      SpanResult dims rk V r.st.W (P r.iter) ∧ SpanResult dims rk V r'.st.W (P r.iter) := by
  obtain ⟨r, Ws, r1, r2, r3, r4, -, -⟩ := C48_tucker h2 hN hr hS hcore hk tol timelimit hm clock hf
  obtain ⟨r', Ws', r1', r2', r3', r4', -, -⟩ := C48_tucker h2 hN hr hS hcore hk' tol timelimit hm clock hf
  obtain ⟨Us, u1, u2⟩ := C76_direct h2 hN hr hS hk hl h0 (m := maxiter.toNat + 1) fun n hn => hP n (by omega)
  obtain ⟨Us', u1', u2'⟩ := C76_direct h2 hN hr hS hk' hl' h0 (m := maxiter.toNat + 1) fun n hn => hP n (by omega)
  have e : Us = Ws := funext fun n => Except.ok.inj ((u1 n).symm.trans (r2 n))
  have e' : Us' = Ws' := funext fun n => Except.ok.inj ((u1' n).symm.trans (r2' n))
  subst e; subst e'
  have hn : ∀ n ≤ maxiter.toNat + 1, coreNorm dims rk V (Us n) = coreNorm dims rk V (Us' n) := by
    intro n hn
    unfold coreNorm
    rw [(u2 n hn).core, (u2' n hn).core]
  obtain ⟨i1, i2⟩ := firstStop_unique r4 r4' (by
    intro n hle
    beta_reduce
    rw [hn n (by omega), lastNorm_congr fun j hj => hn j (by omega)])
  have hb : r.iter ≤ maxiter.toNat + 1 := by have := r4.bound; omega
  exact ⟨r, r', r1, r1', i2, i1, by rw [r3]; exact u2 _ hb, by rw [r3', ← i1]; exact u2' _ hb⟩

/-- **C76 (`alsTucker_DT`, whole call).** The same for the driver with the dimension tree, which then also prints the same lines. -/
theorem C76_tucker_dt (h4 : 4 ≤ N) (h5 : N ≠ 5) (hN : N ≤ 10) (hr : ∀ j, rk j ≤ dims j) (hS : TuckShaped dims rk V W)
    {core : Tensor ℝ} (hcore : core.lens = List.ofFn rk) {k k' : Kern ℝ} (hk : SvdShape k) (hl : SvdLeading k) (hk' : SvdShape k')
    (hl' : SvdLeading k') {P : ℕ → Fin N → ℕ → ℕ → ℝ} (h0 : Spec.Spans dims rk (mats W) (P 0)) {a : LLArgs} (hm : 0 ≤ a.maxiter)
    (hres : a.resprint ≠ 0) (hP : ∀ n ≤ a.maxiter.toNat, Spec.SpanSweep dims rk (arr V N) (P n) (P (n + 1))) (clock : ℕ → ℝ)
    {fuel : ℕ} (hf : (a.maxiter + 1).toNat < fuel) :
    ∃ r r', alsTuckerDT k V a clock fuel core W = .ok r ∧ alsTuckerDT k' V a clock fuel core W = .ok r' ∧ r.ret = r'.ret ∧
      r.iter = r'.iter ∧ (∀ row, row ∈ r.rows ↔ row ∈ r'.rows) ∧
      SpanResult dims rk V r.st.W (P r.iter) ∧ SpanResult dims rk V r'.st.W (P r.iter) ∧ norm2 r.st.core = norm2 r'.st.core := by
  obtain ⟨r, Ws, r1, r0, r2, r3, r4, r5, r6⟩ := C48_tucker_dt h4 h5 hN hr hS hcore hk hm hres clock hf
  obtain ⟨r', Ws', r1', r0', r2', r3', r4', r5', r6'⟩ := C48_tucker_dt h4 h5 hN hr hS hcore hk' hm hres clock hf
  have run : ∀ {k : Kern ℝ} {Ws : ℕ → List (Tensor ℝ)}, SvdShape k → SvdLeading k → Ws 0 = W →
      (∀ n, ∃ C, tuckSweepDT k V (List.ofFn rk) (Ws n) = .ok (Ws (n + 1), C)) →
      ∀ n ≤ a.maxiter.toNat + 1, SpanResult dims rk V (Ws n) (P n) := by
    intro k Ws hk hl w0 hw
    obtain ⟨Us, Cs, u0, u1, u2⟩ := C76_dt h4 h5 (by omega) hr hS hk hl core h0 (m := a.maxiter.toNat + 1) fun n hn => hP n (by omega)
    have e : Us = Ws := by
      funext n
      induction n with
      | zero => rw [u0, w0]
      | succ n ih =>
        obtain ⟨C, c⟩ := hw n
        have := u1 (n + 1)
        rw [iterM_succ_right, u1 n] at this
        simp only [bind, Except.bind] at this
        rw [ih, c] at this
        exact (congrArg Prod.fst (Except.ok.inj this)).symm
    subst e
    exact fun n hn => (u2 n hn).1
  have s := run hk hl r0 r2
  have s' := run hk' hl' r0' r2'
  have hn : ∀ n ≤ a.maxiter.toNat + 1, coreNorm dims rk V (Ws n) = coreNorm dims rk V (Ws' n) := by
    intro n hn
    unfold coreNorm
    rw [(s n hn).core, (s' n hn).core]
  have hne : ∀ n ≤ a.maxiter.toNat + 1, Spec.tuckErrSq dims rk (arr V N) (mats (Ws n)) = Spec.tuckErrSq dims rk (arr V N) (mats (Ws' n)) := by
    intro n hn
    rw [(s n hn).err, (s' n hn).err]
  obtain ⟨i1, i2⟩ := firstStop_unique r4 r4' (by
    intro n hle
    beta_reduce
    rw [hn n (by omega), lastNorm_congr fun j hj => hn j (by omega)])
  have hb : r.iter ≤ a.maxiter.toNat + 1 := by have := r4.bound; omega
  refine ⟨r, r', r1, r1', i2, i1, fun row => ?_, by rw [r3]; exact s _ hb, by rw [r3', ← i1]; exact s' _ hb, ?_⟩
  · rw [r6, r6', ← i1]
    refine exists_congr fun n => and_congr_right fun hle => and_congr_right fun _ => ?_
    rw [hn n (by omega), lastNorm_congr fun j hj => hn j (by omega), hne n (by omega)]
  · have b1 := r5.norm
    have b2 := r5'.norm
    rw [b1, b2, r3, r3', ← i1]
    exact hn _ hb

/-! Non-vacuity: a `2 × 2 × 2 × 2` tensor with entries 2 at `(0,0,0,0)`, 1 at `(1,1,1,1)` and 0 elsewhere, core ranks 1, start at the
first unit vectors; and two SVDs that differ by the sign of every singular vector. -/

/-- The same SVD with the opposite signs. -/
noncomputable def negSvd (k : Kern ℝ) : Kern ℝ :=
  { k with svd := fun M r => { k.svd M r with U := ⟨(k.svd M r).U.lens, fun i => -(k.svd M r).U.val i⟩ } }

theorem negSvd_shape {k : Kern ℝ} (hk : SvdShape k) : SvdShape (negSvd k) := fun M n r hM hr => hk M n r hM hr

theorem negSvd_leading {k : Kern ℝ} (hl : SvdLeading k) : SvdLeading (negSvd k) := by
  intro n r M hM hr hp
  obtain ⟨h1, P, Q, σ, hP, hQ, ha, h0, hm, hu⟩ := hl n r M hM hr hp
  refine ⟨h1, -P, -Q, σ, by simpa using hP, by simpa using hQ, ha, h0, by rw [hm]; simp, ?_⟩
  intro x a hx hxa har
  have := hu x a hx hxa har
  simp only [negSvd, mat] at this ⊢
  rw [this]; rfl

/-- 2 at the first corner, 1 at the last corner of a cube. -/
noncomputable def exCornV : Tensor ℝ := ⟨[2, 2, 2, 2], fun i => if i = [0, 0, 0, 0] then 2 else if i = [1, 1, 1, 1] then 1 else 0⟩

noncomputable def exCornW : List (Tensor ℝ) := List.replicate 4 ⟨[2, 1], fun i => if i = [0, 0] then 1 else 0⟩

/-- The projector onto the first coordinate. -/
noncomputable def exCornP : Fin 4 → ℕ → ℕ → ℝ := fun _ x y => if x = 0 ∧ y = 0 then 1 else 0

theorem exCornShaped : TuckShaped (N := 4) (fun _ => 2) (fun _ => 1) exCornV exCornW where
  lensV := by simp [exCornV, List.ofFn_succ]
  count := rfl
  lensW := by
    intro j M h
    have : M ∈ exCornW := List.mem_of_getElem? h
    rw [exCornW, List.mem_replicate] at this
    rw [this.2]

theorem exCorn_arr (u : Fin 4 → ℕ) : arr exCornV 4 u = if (∀ j, u j = 0) then 2 else if (∀ j, u j = 1) then 1 else 0 := by
  simp [arr, exCornV, List.ofFn_succ, Fin.forall_fin_succ]

theorem exCornSpans : Spec.Spans (N := 4) (fun _ => 2) (fun _ => 1) (mats exCornW) exCornP := by
  intro j x hx y hy
  have : ∀ j : Fin 4, exCornW[j.1]? = some ⟨[2, 1], fun i => if i = [0, 0] then 1 else 0⟩ := by
    intro j; fin_cases j <;> rfl
  simp only [Spec.outer, mats, this, mat, exCornP]
  simp
  split_ifs <;> simp_all

theorem lead2 {G P : ℕ → ℕ → ℝ} {s t : ℝ} (hst : t < s)
    (hG : ∀ x < 2, ∀ y < 2, G x y = if x = 0 ∧ y = 0 then s else if x = 1 ∧ y = 1 then t else 0)
    (hP : ∀ x < 2, ∀ y < 2, P x y = if x = 0 ∧ y = 0 then 1 else 0) : Spec.LeadingProj 2 1 G P := by
  refine ⟨fun x k => if x = k then 1 else 0, fun k => if k = 0 then s else t, ?_, ?_, ?_, ?_⟩
  · intro a ha b hb
    interval_cases a <;> interval_cases b <;> simp [Spec.gram, sum_range_succ]
  · intro x hx y hy
    rw [hG x hx y hy]
    interval_cases x <;> interval_cases y <;> simp [sum_range_succ]
  · intro a ha b hb hb2
    obtain rfl : a = 0 := by omega
    obtain rfl : b = 1 := by omega
    simpa using hst
  · intro x hx y hy
    rw [hP x hx y hy]
    interval_cases x <;> interval_cases y <;> simp [Spec.outer]

theorem exCornGram (i : Fin 4) : ∀ x < 2, ∀ y < 2, Spec.spanGram (fun _ => 2) (arr exCornV 4) exCornP i x y =
    if x = 0 ∧ y = 0 then 4 else if x = 1 ∧ y = 1 then 0 else 0 := by
  intro x hx y hy
  rw [ite_self]
  have t : ∀ u v : Fin 4 → ℕ, ¬ ((∀ j, u j = 0) ∧ ∀ j, v j = 0) →
      arr exCornV 4 u * arr exCornV 4 v * ∏ j ∈ univ.erase i, exCornP j (u j) (v j) = 0 := by
    intro u v h
    obtain ⟨j, hj⟩ : ∃ j : Fin 4, j ∈ univ.erase i := by
      fin_cases i
      · exact ⟨1, by simp⟩
      · exact ⟨0, by simp⟩
      · exact ⟨0, by simp⟩
      · exact ⟨0, by simp⟩
    by_cases hz : u j = 0 ∧ v j = 0
    · rcases not_and_or.1 h with h | h
      · rw [exCorn_arr u, if_neg h, if_neg fun h1 => by have := h1 j; omega]; ring
      · rw [exCorn_arr v, if_neg h, if_neg fun h1 => by have := h1 j; omega]; ring
    · rw [prod_eq_zero hj (by rw [exCornP, if_neg hz]), mul_zero]
  unfold Spec.spanGram
  by_cases h : x = 0 ∧ y = 0
  · obtain ⟨rfl, rfl⟩ := h
    rw [sum_eq_single (fun _ => 0), sum_eq_single (fun _ => 0)]
    · rw [exCorn_arr, if_pos fun _ => rfl, prod_eq_one fun j _ => by simp [exCornP]]; norm_num
    · intro v _ hv
      exact t _ _ fun h => hv (funext h.2)
    · intro h; exact absurd (by simp [Spec.mem_Box]) h
    · intro u _ hu
      exact sum_eq_zero fun v _ => t _ _ fun h => hu (funext h.1)
    · intro h; exact absurd (by simp [Spec.mem_Box]) h
  · rw [if_neg h]
    refine sum_eq_zero fun u hu => sum_eq_zero fun v hv => t _ _ fun h' => h ?_
    rw [← (mem_filter.1 hu).2, ← (mem_filter.1 hv).2]
    exact ⟨h'.1 i, h'.2 i⟩

/-- The subspaces are reproduced in every sweep. -/
theorem exCornSweep : Spec.SpanSweep (N := 4) (fun _ => 2) (fun _ => 1) (arr exCornV 4) exCornP exCornP :=
  ⟨fun _ => exCornP, rfl, rfl, fun i => ⟨fun _ _ => rfl, lead2 (by norm_num) (exCornGram i) fun _ _ _ _ => rfl⟩⟩

example : ∃ (k k' : Kern ℝ) (r r' : LLEnd TuckState), SvdLeading k ∧ SvdLeading k' ∧ k' = negSvd k ∧
    alsTucker k exCornV 0 60 7 (fun _ => 0) 9 ⟨[1, 1, 1, 1], fun _ => 0⟩ exCornW = .ok r ∧
    alsTucker k' exCornV 0 60 7 (fun _ => 0) 9 ⟨[1, 1, 1, 1], fun _ => 0⟩ exCornW = .ok r' ∧ r.iter = r'.iter ∧
    SpanResult (N := 4) (fun _ => 2) (fun _ => 1) exCornV r'.st.W exCornP := by
  obtain ⟨k, hl, hk⟩ := exists_svdLeading
  obtain ⟨r, r', a, b, -, c, -, d⟩ := C76_tucker (N := 4) (by norm_num) (by norm_num) (fun _ => by norm_num) exCornShaped
    (core := ⟨[1, 1, 1, 1], fun _ => 0⟩) (by simp [List.ofFn_succ]) hk hl (negSvd_shape hk) (negSvd_leading hl) (P := fun _ => exCornP)
    exCornSpans 0 60 (maxiter := 7) (by norm_num) (fun _ _ => exCornSweep) (fun _ => 0) (fuel := 9) (by norm_num)
  exact ⟨k, _, r, r', hl, negSvd_leading hl, rfl, a, b, c, d⟩

example : ∃ (k : Kern ℝ) (r r' : LLEnd TuckState), SvdLeading k ∧
    alsTuckerDT k exCornV ⟨0, 60, 7, 10⟩ (fun _ => 0) 9 ⟨[1, 1, 1, 1], fun _ => 0⟩ exCornW = .ok r ∧
    alsTuckerDT (negSvd k) exCornV ⟨0, 60, 7, 10⟩ (fun _ => 0) 9 ⟨[1, 1, 1, 1], fun _ => 0⟩ exCornW = .ok r' ∧ r.iter = r'.iter := by
  obtain ⟨k, hl, hk⟩ := exists_svdLeading
  obtain ⟨r, r', a, b, -, c, -⟩ := C76_tucker_dt (N := 4) (by norm_num) (by norm_num) (by norm_num) (fun _ => by norm_num) exCornShaped
    (core := ⟨[1, 1, 1, 1], fun _ => 0⟩) (by simp [List.ofFn_succ]) hk hl (negSvd_shape hk) (negSvd_leading hl) (P := fun _ => exCornP)
    exCornSpans (a := ⟨0, 60, 7, 10⟩) (by norm_num) (by norm_num) (fun _ _ => exCornSweep) (fun _ => 0) (fuel := 9) (by norm_num)
  exact ⟨k, r, r', hl, a, b, c⟩

example : ∃ (k : Kern ℝ) (Ws : ℕ → List (Tensor ℝ)), SvdLeading k ∧
    (∀ n, iterM (tuckSweep k exCornV (List.ofFn fun _ : Fin 4 => 1)) n exCornW = .ok (Ws n)) ∧
    ∀ n ≤ 100, SpanResult (N := 4) (fun _ => 2) (fun _ => 1) exCornV (Ws n) exCornP := by
  obtain ⟨k, hl, hk⟩ := exists_svdLeading
  obtain ⟨Ws, h⟩ := C76_direct (N := 4) (by norm_num) (by norm_num) (fun _ => by norm_num) exCornShaped hk hl (P := fun _ => exCornP)
    exCornSpans (m := 100) fun _ _ => exCornSweep
  exact ⟨k, Ws, hl, h⟩

example : ∃ (k : Kern ℝ) (Ws Ps : ℕ → List (Tensor ℝ)), SvdLeading k ∧
    (∀ n, iterM (fun s : List (Tensor ℝ) × List (Tensor ℝ) => do
        let r ← tuckSweepDTsub k exCornV (List.ofFn fun _ : Fin 4 => 1) s.1 s.2
        pure (r.1, r.1)) n (exCornW, exCornW) = .ok (Ps n, Ws n)) ∧
    ∀ n ≤ 100, SpanResult (N := 4) (fun _ => 2) (fun _ => 1) exCornV (Ws n) exCornP := by
  obtain ⟨k, hl, hk⟩ := exists_svdLeading
  obtain ⟨Ws, Ps, h⟩ := C76_dtsub (N := 4) (by norm_num) (by norm_num) (by norm_num) (fun _ => by norm_num) exCornShaped exCornShaped hk hl
    (P := fun _ => exCornP) exCornSpans (m := 100) fun _ _ => exCornSweep
  exact ⟨k, Ws, Ps, hl, h⟩

theorem exCornUnfold (i : Fin 4) : ∀ x < 2, ∀ y < 2, Spec.unfoldGram (fun _ => 2) (arr exCornV 4) i x y =
    if x = 0 ∧ y = 0 then 4 else if x = 1 ∧ y = 1 then 1 else 0 := by
  intro x hx y hy
  have t : ∀ z : Fin 4 → ℕ, z i = x → z ≠ (fun _ => x) →
      arr exCornV 4 z * arr exCornV 4 (update z i y) = 0 := by
    intro z hz hne
    rw [exCorn_arr z]
    rw [if_neg, if_neg]
    · ring
    · intro h; exact hne (funext fun j => by rw [h j, ← hz, h i])
    · intro h; exact hne (funext fun j => by rw [h j, ← hz, h i])
  unfold Spec.unfoldGram
  rw [sum_eq_single (fun _ => x)]
  · rw [exCorn_arr, exCorn_arr]
    by_cases hxy : x = y
    · subst hxy
      rw [update_eq_self]
      interval_cases x <;> norm_num
    · have n1 : ∀ c : ℕ, ¬ ∀ j, update (fun _ : Fin 4 => x) i y j = c := by
        intro c h
        obtain ⟨j, hj⟩ : ∃ j : Fin 4, j ≠ i := by
          fin_cases i
          · exact ⟨1, by decide⟩
          · exact ⟨0, by decide⟩
          · exact ⟨0, by decide⟩
          · exact ⟨0, by decide⟩
        have a := h i
        have b := h j
        rw [update_self] at a
        rw [update_of_ne hj] at b
        omega
      rw [if_neg (n1 0), if_neg (n1 1), mul_zero, if_neg (by omega), if_neg (by omega)]
  · intro z hz hne
    exact t z (mem_filter.1 hz).2 hne
  · intro h; exact absurd (by simp [Spec.mem_Box, hx]) h

example : ∃ (k : Kern ℝ) (C : Tensor ℝ) (F : List (Tensor ℝ)), SvdLeading k ∧
    hosvd k exCornV (List.ofFn fun _ : Fin 4 => 1) = .ok (C, F) ∧ SpanResult (N := 4) (fun _ => 2) (fun _ => 1) exCornV F exCornP := by
  obtain ⟨k, hl, hk⟩ := exists_svdLeading
  obtain ⟨C, F, a, b, -⟩ := C76_hosvd (N := 4) (by norm_num) (by norm_num) exCornShaped.lensV (fun _ => by norm_num) hk hl
    (P := exCornP) fun i => lead2 (by norm_num) (exCornUnfold i) fun _ _ _ _ => rfl
  exact ⟨k, C, F, hl, a, b⟩

end Properties
