import Verif.Properties.LegacyLoop

/-! # C48 for `alsTucker` and `alsTucker_DT`; C53: does the returned core belong to the returned factors? -/

namespace Properties

open Model Finset

variable {N : ℕ} {dims rk : Fin N → ℕ} {V : Tensor ℝ} {W : List (Tensor ℝ)}

open Classical in
/-- The value the Tucker drivers compare with at iteration `k`: that of the last tested iteration before `k`, or `n0`. -/
noncomputable def lastNorm (tested : ℕ → Prop) (n0 : ℝ) (nrm : ℕ → ℝ) : ℕ → ℝ
  | 0 => n0
  | k + 1 => if tested k then nrm k else lastNorm tested n0 nrm k

/-- The norm of the core belonging to factors `W`. -/
noncomputable def coreNorm (dims rk : Fin N → ℕ) (V : Tensor ℝ) (W : List (Tensor ℝ)) : ℝ :=
  Real.sqrt (Spec.coreNormSq dims rk (arr V N) (mats W))

/-- What the histories of both drivers have in common. -/
structure TuckHist (dims rk : Fin N → ℕ) (V : Tensor ℝ) (h : LLHooks TuckState) (n0 : ℝ) (res : List (Tensor ℝ) → ℝ)
    (tr : ℕ → TuckState) (c : ℕ → TuckState × ℝ × ℝ) (mid : ℕ → TuckState) : Prop where
  inv : ∀ k, TuckInv dims rk V (tr k)
  cW : ∀ k, (c k).1.W = (tr k).W
  cCore : ∀ k, IsCore dims rk V (tr k).W (c k).1.core
  meas : ∀ k, (c k).2 = (|coreNorm dims rk V (tr k).W - lastNorm h.checked n0 (fun k => coreNorm dims rk V (tr k).W) k|,
    res (tr k).W)
  midW : ∀ k, (mid k).W = (tr k).W
  midInv : ∀ k, TuckInv dims rk V (mid k)
  midCore : ∀ k, h.checked k → (mid k).core = (c k).1.core
  midCore' : ∀ k, ¬ h.checked k → (mid k).core = (tr k).core

theorem tuck_trace (hN : N ≤ 31) {h : LLHooks TuckState} {res : List (Tensor ℝ) → ℝ} {st : TuckState} (hst : TuckInv dims rk V st)
    (hc : ∀ s, TuckInv dims rk V s → ∃ C, h.check s = .ok ({ s with core := C }, |coreNorm dims rk V s.W - norm2 s.corePrev|, res s.W) ∧
      IsCore dims rk V s.W C)
    (hacc : h.accept = keepCore)
    (hs : ∀ s, TuckInv dims rk V s → ∃ W' C, h.sweep s = .ok { s with W := W', core := C } ∧ TuckShaped dims rk V W' ∧
      C.lens = List.ofFn rk) :
    ∃ tr c mid, LLTrace h st tr c mid ∧ TuckHist dims rk V h (norm2 st.corePrev) res tr c mid := by
  obtain ⟨tr, c, mid, H, hP⟩ := llTrace_exists (h := h) (P := TuckInv dims rk V) hst (by
      intro s hs
      obtain ⟨C, c1, c2⟩ := hc s hs
      obtain ⟨s', a1, a2, _⟩ := keepCore_ok hN (dims := dims) (rk := rk) (V := V) (s := { s with core := C }) ⟨hs.W, c2.1, hs.prev⟩
      exact ⟨_, c1, s', by rw [hacc]; exact a1, a2⟩) (by
      intro s h
      obtain ⟨W', C, a, b, d⟩ := hs s h
      exact ⟨_, a, b, d, h.prev⟩)
  have hck : ∀ k, ∃ C, c k = ({ tr k with core := C }, |coreNorm dims rk V (tr k).W - norm2 (tr k).corePrev|, res (tr k).W) ∧
      IsCore dims rk V (tr k).W C := by
    intro k
    obtain ⟨C, c1, c2⟩ := hc _ (hP k).1
    have := H.check k
    rw [c1] at this
    exact ⟨C, (Except.ok.inj this).symm, c2⟩
  choose C hC hCore using hck
  have hm : ∀ k, h.checked k → (mid k).W = (tr k).W ∧ (mid k).core = C k ∧ norm2 (mid k).corePrev = coreNorm dims rk V (tr k).W := by
    intro k hk
    have h1 := H.mid1 k hk
    rw [hC, hacc] at h1
    obtain ⟨s', a1, _, a3, a4, a5⟩ := keepCore_ok hN (dims := dims) (rk := rk) (V := V) (s := { tr k with core := C k })
      ⟨(hP k).1.W, (hCore k).1, (hP k).1.prev⟩
    rw [a1] at h1
    rw [← Except.ok.inj h1]
    exact ⟨a3, a4, by rw [a5]; exact (hCore k).norm⟩
  have hprev : ∀ k, norm2 (tr (k + 1)).corePrev = norm2 (mid k).corePrev := by
    intro k
    obtain ⟨W', C, a, _⟩ := hs _ (hP k).2
    have := H.sweep k
    rw [a] at this
    rw [← Except.ok.inj this]
  have hlast : ∀ k, norm2 (tr k).corePrev = lastNorm h.checked (norm2 st.corePrev) (fun k => coreNorm dims rk V (tr k).W) k := by
    intro k
    induction k with
    | zero => rw [H.start]; rfl
    | succ k ih =>
      rw [hprev]
      unfold lastNorm
      by_cases hk : h.checked k
      · rw [if_pos hk, (hm k hk).2.2]
      · rw [if_neg hk, H.mid2 k hk, ih]
  refine ⟨tr, c, mid, H, fun k => (hP k).1, fun k => by rw [hC], fun k => by rw [hC]; exact hCore k, ?_, ?_, fun k => (hP k).2, ?_, ?_⟩
  · intro k
    rw [hC, ← hlast]
  · intro k
    by_cases hk : h.checked k
    · exact (hm k hk).1
    · rw [H.mid2 k hk]
  · intro k hk
    rw [hC, (hm k hk).2.1]
  · intro k hk
    rw [H.mid2 k hk]

/-- Iterations at which `alsTucker` tests. -/
def tuckTested (maxiter : ℤ) (k : ℕ) : Prop := (k % 100 = 0 ∧ k ≠ 0) ∨ (k : ℤ) = maxiter

/-- Iterations at which `alsTucker_DT` tests. -/
def tuckDTTested (a : LLArgs) (k : ℕ) : Prop := (Int.tmod (k : ℤ) a.resprint = 0 ∧ k ≠ 0) ∨ k = 1 ∨ (k : ℤ) = a.maxiter

/-- **C48, C53 (`alsTucker`).** Orders 2..10, any SVD returning matrices of the requested shape, any clock: the call returns; the
factors left are those after `iter` sweeps; `iter` is the first tested iteration (multiples of 100 and `maxiter`, not 0 unless
`maxiter = 0`) at which the core norm differs by less than `tol` from that of the last tested iteration (first: from that of
the core passed in), or the time is up; `true` is returned iff there is one.  If `true` is returned the core left belongs to
the factors left; if `false` is returned, it belongs to the factors before the last sweep. -/
theorem C48_tucker (h2 : 2 ≤ N) (hN : N ≤ 10) (hr : ∀ j, rk j ≤ dims j) (hS : TuckShaped dims rk V W) {core : Tensor ℝ}
    (hcore : core.lens = List.ofFn rk) {k : Kern ℝ} (hk : SvdShape k) (tol timelimit : ℝ) {maxiter : ℤ}
    (hm : 0 ≤ maxiter) (clock : ℕ → ℝ) {fuel : ℕ} (hf : (maxiter + 1).toNat < fuel) :
    ∃ (r : LLEnd TuckState) (Ws : ℕ → List (Tensor ℝ)), alsTucker k V tol timelimit maxiter clock fuel core W = .ok r ∧
      (∀ n, iterM (tuckSweep k V (List.ofFn rk)) n W = .ok (Ws n)) ∧ r.st.W = Ws r.iter ∧
      FirstStop (fun n => tuckTested maxiter n ∧
        (|coreNorm dims rk V (Ws n) - lastNorm (tuckTested maxiter) (norm2 core) (fun n => coreNorm dims rk V (Ws n)) n| < tol ∨
          timelimit < clock n)) maxiter r.iter r.ret ∧
      (r.ret = true → IsCore dims rk V r.st.W r.st.core) ∧
      (r.ret = false → IsCore dims rk V (Ws maxiter.toNat) r.st.core) := by
  have hsw : ∀ s, TuckInv dims rk V s → ∃ W', tuckSweep k V (List.ofFn rk) s.W = .ok W' ∧
      (tuckHooks k V maxiter).sweep s = .ok { s with W := W' } ∧ TuckShaped dims rk V W' := by
    intro s hs
    obtain ⟨W', a, b, _⟩ := tuckSweep_ok h2 hN hr hs.W hk
    refine ⟨W', a, ?_, b⟩
    simp only [tuckHooks, hs.core, bind, Except.bind]
    rw [a]
    rfl
  obtain ⟨tr, c, mid, H, T⟩ := tuck_trace (dims := dims) (rk := rk) (V := V) (by omega) (h := tuckHooks k V maxiter)
    (res := fun _ => 0) (st := ⟨W, core, core⟩) ⟨hS, hcore, hcore⟩ (by
      intro s hs
      obtain ⟨C, c1, c2, c3⟩ := C33_ttmc_all (by omega) hN hs.W s.core
      have hC : IsCore dims rk V s.W C := ⟨c2, c3⟩
      refine ⟨C, ?_, hC⟩
      simp only [tuckHooks, tuckCheckOnly, bind, Except.bind]
      rw [c1]
      simp only [pure, Except.pure, hC.norm]
      rfl) rfl (by
      intro s hs
      obtain ⟨W', _, a, b⟩ := hsw s hs
      exact ⟨W', s.core, a, b, hs.core⟩)
  have hstep : ∀ n, tuckSweep k V (List.ofFn rk) (tr n).W = .ok (tr (n + 1)).W ∧ (tr (n + 1)).core = (mid n).core := by
    intro n
    obtain ⟨W', a, b, _⟩ := hsw _ (T.midInv n)
    have := H.sweep n
    rw [b] at this
    rw [← T.midW n, a, ← Except.ok.inj this]
    exact ⟨rfl, rfl⟩
  have htr : ∀ n, iterM (tuckSweep k V (List.ofFn rk)) n W = .ok (tr n).W := by
    intro n
    induction n with
    | zero => rw [H.start]; rfl
    | succ n ih =>
      rw [iterM_succ_right', ih]
      exact (hstep n).1
  obtain ⟨r, r1, r2⟩ := llLoop_run (clock := clock) (a := ⟨tol, timelimit, maxiter, 100⟩) (by norm_num) H hf
  have hfs := firstStop_of r2 hm (stop := fun n => tuckTested maxiter n ∧
        (|coreNorm dims rk V (tr n).W - lastNorm (tuckTested maxiter) (norm2 core) (fun n => coreNorm dims rk V (tr n).W) n| < tol ∨
          timelimit < clock n)) (by
      intro n
      simp only [LLStop, T.meas]
      rfl)
  refine ⟨r, fun n => (tr n).W, r1, htr, ?_, hfs, ?_, ?_⟩
  · cases hbr : r.broke with
    | false => rw [(r2.atEnd hbr).2]
    | true => rw [(r2.atBreak hbr).2.2, T.cW]
  · intro ht
    have hb : r.broke = true := by
      by_contra hb
      have hb := (r2.atEnd (by simpa using hb)).1
      have := (hfs.yes.1 ht).1
      simp only at this hb
      omega
    rw [(r2.atBreak hb).2.2, T.cW]
    exact T.cCore _
  · intro hfalse
    have hi := hfs.no.1 hfalse
    have hb : r.broke = false := by
      by_contra hb
      have := (r2.atBreak (by simpa using hb)).1
      simp only at this hi
      omega
    simp only at hi
    have hi' : r.iter = maxiter.toNat + 1 := by omega
    have hch : (tuckHooks k V maxiter).checked maxiter.toNat := .inr (by omega)
    rw [(r2.atEnd hb).2, hi', (hstep _).2, T.midCore _ hch]
    exact T.cCore _

/-- **C48, C53 (`alsTucker_DT`).** Orders 4, 6..10: as for `alsTucker`, tested are iterations 1, `maxiter` and the multiples of
`resprint` (not 0 unless `maxiter = 0`).  The core left always belongs to the factors left, and each printed line gives the
change of the core norm and the true residual at that iteration. -/
theorem C48_tucker_dt (h4 : 4 ≤ N) (h5 : N ≠ 5) (hN : N ≤ 10) (hr : ∀ j, rk j ≤ dims j) (hS : TuckShaped dims rk V W)
    {core : Tensor ℝ} (hcore : core.lens = List.ofFn rk) {k : Kern ℝ} (hk : SvdShape k) {a : LLArgs}
    (hm : 0 ≤ a.maxiter) (hres : a.resprint ≠ 0) (clock : ℕ → ℝ) {fuel : ℕ} (hf : (a.maxiter + 1).toNat < fuel) :
    ∃ (r : LLEnd TuckState) (Ws : ℕ → List (Tensor ℝ)), alsTuckerDT k V a clock fuel core W = .ok r ∧ Ws 0 = W ∧
      (∀ n, ∃ C, tuckSweepDT k V (List.ofFn rk) (Ws n) = .ok (Ws (n + 1), C)) ∧ r.st.W = Ws r.iter ∧
      FirstStop (fun n => tuckDTTested a n ∧
        (|coreNorm dims rk V (Ws n) - lastNorm (tuckDTTested a) (norm2 core) (fun n => coreNorm dims rk V (Ws n)) n| < a.tol ∨
          a.timelimit < clock n)) a.maxiter r.iter r.ret ∧
      IsCore dims rk V r.st.W r.st.core ∧
      ∀ row, row ∈ r.rows ↔ ∃ n, (n ≤ r.iter ∧ (n : ℤ) ≤ a.maxiter) ∧ tuckDTTested a n ∧ row = (n,
        |coreNorm dims rk V (Ws n) - lastNorm (tuckDTTested a) (norm2 core) (fun n => coreNorm dims rk V (Ws n)) n|,
        Real.sqrt (Spec.tuckErrSq dims rk (arr V N) (mats (Ws n)))) := by
  have hsw : ∀ s, TuckInv dims rk V s → ∃ W' C, tuckSweepDT k V (List.ofFn rk) s.W = .ok (W', C) ∧
      (tuckDTHooks k V a).sweep s = .ok { s with W := W', core := C } ∧ TuckShaped dims rk V W' ∧ IsCore dims rk V W' C := by
    intro s hs
    obtain ⟨W', C, b1, b2, _, _, e⟩ := tuckSweepDT_ok h4 h5 (by omega) hr hs.W hk
    have e' : klens dims rk ∅ = rk := by funext j; simp [klens]
    obtain ⟨e1, e2⟩ := e
    rw [e'] at e1 e2
    refine ⟨W', C, b1, ?_, b2, e1, e2⟩
    simp only [tuckDTHooks, hs.core, bind, Except.bind]
    rw [b1]
    rfl
  obtain ⟨tr, c, mid, H, T⟩ := tuck_trace (dims := dims) (rk := rk) (V := V) (by omega) (h := tuckDTHooks k V a)
    (res := fun W => Real.sqrt (Spec.tuckErrSq dims rk (arr V N) (mats W))) (st := ⟨W, core, core⟩) ⟨hS, hcore, hcore⟩ (by
      intro s hs
      obtain ⟨C, c1, c2, c3⟩ := C38_check (by omega) hN hs.W s.core s.corePrev
      refine ⟨C, ?_, c2, c3⟩
      simp only [tuckDTHooks, bind, Except.bind]
      rw [c1]
      rfl) rfl (by
      intro s hs
      obtain ⟨W', C, _, b1, b2, b3⟩ := hsw s hs
      exact ⟨W', C, b1, b2, b3.1⟩)
  have hstep : ∀ n, (∃ C, tuckSweepDT k V (List.ofFn rk) (tr n).W = .ok ((tr (n + 1)).W, C)) ∧
      IsCore dims rk V (tr (n + 1)).W (tr (n + 1)).core := by
    intro n
    obtain ⟨W', C, b1, b2, b3, b4⟩ := hsw _ (T.midInv n)
    have := H.sweep n
    rw [b2] at this
    rw [← T.midW n, b1, ← Except.ok.inj this]
    exact ⟨⟨C, rfl⟩, b4⟩
  obtain ⟨r, r1, r2⟩ := llLoop_run (clock := clock) hres H hf
  have hfs := firstStop_of r2 hm (stop := fun n => tuckDTTested a n ∧
        (|coreNorm dims rk V (tr n).W - lastNorm (tuckDTTested a) (norm2 core) (fun n => coreNorm dims rk V (tr n).W) n| < a.tol ∨
          a.timelimit < clock n)) (by
      intro n
      simp only [LLStop, T.meas]
      rfl)
  refine ⟨r, fun n => (tr n).W, r1, by beta_reduce; rw [H.start], fun n => (hstep n).1, ?_, hfs, ?_, ?_⟩
  · cases hbr : r.broke with
    | false => rw [(r2.atEnd hbr).2]
    | true => rw [(r2.atBreak hbr).2.2, T.cW]
  · cases hbr : r.broke with
    | false =>
      rw [(r2.atEnd hbr).2]
      obtain ⟨n, hn⟩ : ∃ n, r.iter = n + 1 := ⟨a.maxiter.toNat, by rw [(r2.atEnd hbr).1]; omega⟩
      rw [hn]
      exact (hstep n).2
    | true =>
      rw [(r2.atBreak hbr).2.2, T.cW]
      exact T.cCore _
  · intro row
    rw [r2.rows]
    have hlt : ∀ n, n < (if r.broke = true then r.iter + 1 else r.iter) ↔ n ≤ r.iter ∧ (n : ℤ) ≤ a.maxiter := by
      intro n
      cases hbr : r.broke with
      | false => have := (r2.atEnd hbr).1; simp only [Bool.false_eq_true, if_false]; omega
      | true => have := (r2.atBreak hbr).1; simp only [if_true]; omega
    unfold llRows
    simp only [List.mem_map, List.mem_filter, List.mem_range, hlt, decide_eq_true_eq]
    constructor
    · rintro ⟨n, ⟨h1, h2⟩, rfl⟩
      exact ⟨n, h1, h2, by rw [T.meas]; rfl⟩
    · rintro ⟨n, h1, h2, rfl⟩
      exact ⟨n, ⟨h1, h2⟩, by rw [T.meas]; rfl⟩

/-- **C53 (holds for `alsTucker_DT`).** With `maxiter ≥ 0` the core returned is the input multiplied by the transposes of the
returned factors in all modes, whatever the returned value. -/
theorem C53_tucker_dt (h4 : 4 ≤ N) (h5 : N ≠ 5) (hN : N ≤ 10) (hr : ∀ j, rk j ≤ dims j) (hS : TuckShaped dims rk V W)
    {core : Tensor ℝ} (hcore : core.lens = List.ofFn rk) {k : Kern ℝ} (hk : SvdShape k) {a : LLArgs}
    (hm : 0 ≤ a.maxiter) (hres : a.resprint ≠ 0) (clock : ℕ → ℝ) {fuel : ℕ} (hf : (a.maxiter + 1).toNat < fuel) :
    ∃ r, alsTuckerDT k V a clock fuel core W = .ok r ∧ r.st.core.lens = List.ofFn rk ∧
      ∀ z : Fin N → ℕ, (∀ j, z j < rk j) → arr r.st.core N z = Spec.multiTTM dims (arr V N) (mats r.st.W) ∅ z := by
  obtain ⟨r, _, h, _, _, _, _, hc, _⟩ := C48_tucker_dt h4 h5 hN hr hS hcore hk hm hres clock hf
  exact ⟨r, h, hc.1, hc.2⟩

/-- **C53 (`alsTucker`).** The core returned belongs to the returned factors if `true` is returned; otherwise it belongs to
other factors `W'`, from which the returned ones result by one more sweep. -/
theorem C53_tucker (h2 : 2 ≤ N) (hN : N ≤ 10) (hr : ∀ j, rk j ≤ dims j) (hS : TuckShaped dims rk V W) {core : Tensor ℝ}
    (hcore : core.lens = List.ofFn rk) {k : Kern ℝ} (hk : SvdShape k) (tol timelimit : ℝ) {maxiter : ℤ}
    (hm : 0 ≤ maxiter) (clock : ℕ → ℝ) {fuel : ℕ} (hf : (maxiter + 1).toNat < fuel) :
    ∃ r, alsTucker k V tol timelimit maxiter clock fuel core W = .ok r ∧
      (r.ret = true → IsCore dims rk V r.st.W r.st.core) ∧
      (r.ret = false → ∃ W', tuckSweep k V (List.ofFn rk) W' = .ok r.st.W ∧ IsCore dims rk V W' r.st.core) := by
  obtain ⟨r, Ws, h, hw, hst, hfs, c1, c2⟩ := C48_tucker h2 hN hr hS hcore hk tol timelimit hm clock hf
  refine ⟨r, h, c1, fun hf => ⟨Ws maxiter.toNat, ?_, c2 hf⟩⟩
  have hi := hfs.no.1 hf
  have h1 := hw (maxiter.toNat + 1)
  rw [iterM_succ_right', hw maxiter.toNat] at h1
  rw [hst, show r.iter = maxiter.toNat + 1 by omega]
  exact h1

/-! A problem on which `alsTucker` returns a core that does not belong to the factors. -/

/-- `V` is the 1 x 1 tensor 1. -/
noncomputable def exOneV : Tensor ℝ := ⟨[1, 1], fun _ => 1⟩

noncomputable def exOneW : List (Tensor ℝ) := [⟨[1, 1], fun _ => 2⟩, ⟨[1, 1], fun _ => 1⟩]

theorem exOneShaped : TuckShaped (N := 2) (fun _ => 1) (fun _ => 1) exOneV exOneW where
  lensV := by simp [exOneV, List.ofFn_succ]
  count := rfl
  lensW := by
    intro j M h
    fin_cases j <;> (simp [exOneW] at h; subst h; rfl)

theorem multiTTM_one (v : (Fin 2 → ℕ) → ℝ) (F : Fin 2 → ℕ → ℕ → ℝ) :
    Spec.multiTTM (fun _ => 1) v F ∅ (fun _ => 0) = v (fun _ => 0) * (F 0 0 0 * F 1 0 0) := by
  unfold Spec.multiTTM
  rw [Finset.sum_eq_single (fun _ => 0)]
  · simp [Fin.prod_univ_two]
  · intro b hb hne
    exact absurd (funext fun j => by have := Spec.mem_Box.1 (Finset.mem_filter.1 hb).1 j; omega) hne
  · intro h
    exact absurd (Finset.mem_filter.2 ⟨Spec.mem_Box.2 fun _ => by norm_num, by simp⟩) h

/-- **C53 (violated by `alsTucker`).** For every correct SVD: on this 1 x 1 problem `alsTucker` with `maxiter = 0`, `tol = 0`
returns `false` and a core that is not the one belonging to the returned factors. -/
theorem C53_tucker_violated {k : Kern ℝ} (hk : SvdShape k) (hl : SvdLeading k) :
    ∃ r, alsTucker k exOneV 0 60 0 (fun _ => 0) 2 ⟨[1, 1], fun _ => 0⟩ exOneW = .ok r ∧ r.ret = false ∧
      ¬ IsCore (N := 2) (fun _ => 1) (fun _ => 1) exOneV r.st.W r.st.core := by
  obtain ⟨r, Ws, h, hw, hst, hfs, _, c2⟩ := C48_tucker (N := 2) (dims := fun _ => 1) (rk := fun _ => 1) (by norm_num) (by norm_num)
    (fun _ => le_rfl) exOneShaped (core := ⟨[1, 1], fun _ => 0⟩) (by simp [List.ofFn_succ]) hk 0 60 (maxiter := 0) le_rfl
    (fun _ => 0) (fuel := 2) (by norm_num)
  have hret : r.ret = false := by
    by_contra hc
    have hc : r.ret = true := by simpa using hc
    obtain ⟨_, _, h1 | h1⟩ := hfs.yes.1 hc
    · exact absurd (abs_nonneg _) (not_le.2 h1)
    · norm_num at h1
  have hi := hfs.no.1 hret
  have hi : r.iter = 1 := by omega
  refine ⟨r, h, hret, fun hc => ?_⟩
  have e1 := hc.2 (fun _ => 0) (fun _ => by norm_num)
  have e2 := (c2 hret).2 (fun _ => 0) (fun _ => by norm_num)
  rw [e2, multiTTM_one, multiTTM_one, hst, hi] at e1
  have hW0 : Ws 0 = exOneW := by
    have := hw 0
    simp only [iterM] at this
    exact (Except.ok.inj this).symm
  obtain ⟨Ws', _, w2, w3⟩ := C38_direct_monotone (N := 2) (dims := fun _ => 1) (rk := fun _ => 1) (by norm_num) (by norm_num)
    (fun _ => le_rfl) exOneShaped hk hl
  have hW1 : Ws 1 = Ws' 1 := by
    have h1 := hw 1
    rw [w2 1] at h1
    exact (Except.ok.inj h1).symm
  have o0 := w3.2.1 1 le_rfl 0 0 (by norm_num) 0 (by norm_num)
  have o1 := w3.2.1 1 le_rfl 1 0 (by norm_num) 0 (by norm_num)
  rw [← hW1] at o0 o1
  simp only [Spec.gram, sum_range_one, if_true] at o0 o1
  have hx : arr exOneV 2 (fun _ => 0) = 1 := rfl
  rw [hx, show (0 : ℤ).toNat = 0 from rfl, hW0] at e1
  have ha : mats (N := 2) exOneW 0 0 0 = 2 := rfl
  have hb : mats (N := 2) exOneW 1 0 0 = 1 := rfl
  rw [ha, hb] at e1
  nlinarith [congrArg (fun t => t * t) e1]

/-! ## The hypotheses are met by concrete problems -/

section Examples

example : ∃ (k : Kern ℝ) (r : LLEnd TuckState), alsTucker k exTuckV (1 / 1000) 60 250 (fun _ => 1) 252
    ⟨[1, 2, 1, 3], fun _ => 1⟩ exTuckW = .ok r := by
  obtain ⟨k, _, hk⟩ := exists_svdLeading
  obtain ⟨r, _, h, _⟩ := C48_tucker (by norm_num) (by norm_num) exTuckRank exTuckShaped (core := ⟨[1, 2, 1, 3], fun _ => 1⟩) rfl hk
    (1 / 1000) 60 (maxiter := 250) (by norm_num) (fun _ => 1) (fuel := 252) (by norm_num)
  exact ⟨k, r, h⟩

example : ∃ (k : Kern ℝ) (r : LLEnd TuckState), alsTuckerDT k exTuckV ⟨1 / 1000, 60, 25, 10⟩ (fun _ => 1) 27
    ⟨[1, 2, 1, 3], fun _ => 1⟩ exTuckW = .ok r := by
  obtain ⟨k, _, hk⟩ := exists_svdLeading
  obtain ⟨r, _, h, _⟩ := C48_tucker_dt (by norm_num) (by norm_num) (by norm_num) exTuckRank exTuckShaped
    (core := ⟨[1, 2, 1, 3], fun _ => 1⟩) rfl hk (a := ⟨1 / 1000, 60, 25, 10⟩) (by norm_num) (by norm_num) (fun _ => 1)
    (fuel := 27) (by norm_num)
  exact ⟨k, r, h⟩

example : ∃ (k : Kern ℝ) (r : LLEnd TuckState), alsTucker k exOneV 0 60 0 (fun _ => 0) 2 ⟨[1, 1], fun _ => 0⟩ exOneW = .ok r ∧
    r.ret = false := by
  obtain ⟨k, hl, hk⟩ := exists_svdLeading
  obtain ⟨r, h1, h2, _⟩ := C53_tucker_violated hk hl
  exact ⟨k, r, h1, h2⟩

example : ∃ r, alsCPDT 4 2 (1 / 2) (fun _ _ _ _ _ _ => 1) exVR exF0 ⟨1 / 1000, 60, 25, 10⟩ (fun k => k) 27 exFacR = .ok r := by
  obtain ⟨r, _, _, h, _⟩ := C48_cp_dt (N := 4) (dims := ![2, 3, 1, 4]) (R := 2) (by norm_num) (by norm_num) (by norm_num)
    (V := exVR) (F := exF0) ⟨rfl, rfl, by intro j M h; fin_cases j <;> (simp [exF0] at h; subst h; rfl)⟩ (f := exFacR)
    exShapedR rfl (1 / 2) (fun _ _ _ _ _ _ => 1) (a := ⟨1 / 1000, 60, 25, 10⟩) (by norm_num) (by norm_num) (fun k => k)
    (fuel := 27) (by norm_num)
  exact ⟨r, h⟩

/-- With zero gradient matrices, as `alsCP_DT` receives them on the first call. -/
example : ∃ r, alsCPDT 4 2 (1 / 2) (fun _ _ _ _ _ _ => 1) exVR exF0 ⟨1 / 1000, 60, 25, 10⟩ (fun k => k) 27
    ⟨exFacR.W, exF0⟩ = .ok r ∧ r.iter = 0 ∧ r.ret = true := by
  have hF : Shaped (N := 4) ![2, 3, 1, 4] 2 exVR exF0 :=
    ⟨rfl, rfl, by intro j M h; fin_cases j <;> (simp [exF0] at h; subst h; rfl)⟩
  obtain ⟨r, h, h1, h2, _⟩ := C48_cp_dt_zero_gradient (N := 4) (dims := ![2, 3, 1, 4]) (R := 2) (by norm_num) (by norm_num)
    (by norm_num) (V := exVR) (F := exF0) hF (f := ⟨exFacR.W, exF0⟩) exShapedR hF
    (by intro j x _ r _; fin_cases j <;> simp [mats, mat, exF0]) (1 / 2) (fun _ _ _ _ _ _ => 1)
    (a := ⟨1 / 1000, 60, 25, 10⟩) (by norm_num) (by norm_num) (by norm_num) (fun k => k) (fuel := 27) (by norm_num)
  exact ⟨r, h, h1, h2⟩

/-- A 3 x 3 x 3 problem of rank 2 for `alsCP`. -/
noncomputable def exCubeV : Tensor ℝ := ⟨[3, 3, 3], fun idx => (idx.sum : ℝ) + 1⟩

noncomputable def exCubeW : List (Tensor ℝ) := [⟨[3, 2], fun _ => 1⟩, ⟨[3, 2], fun _ => 2⟩, ⟨[3, 2], fun _ => 3⟩]

theorem exCubeShaped : Shaped (fun _ : Fin 3 => 3) 2 exCubeV exCubeW where
  lensV := by simp [exCubeV, List.ofFn_succ]
  count := rfl
  lensW := by
    intro j M h
    fin_cases j <;> (simp [exCubeW] at h; subst h; rfl)

example : ∃ r, alsCP 3 2 (fun _ _ _ _ _ _ => 1) exCubeV exCubeW (1 / 1000) 60 250 (fun k => k) 252 exCubeW exCubeW = .ok r := by
  obtain ⟨r, _, _, _, h, _⟩ := C48_cp (N := 3) (s := 3) (R := 2) (by norm_num) (by norm_num) exCubeShaped exCubeShaped
    (G := exCubeW) rfl (fun _ _ _ _ _ _ => 1) (1 / 1000) 60 (maxiter := 250) (by norm_num) (fun k => k) (fuel := 252)
    (by norm_num)
  exact ⟨r, h⟩

end Examples

end Properties
