import Verif.Properties.TuckLoop
import Verif.Proofs.ConvergeLimit

/-! # C66: the Tucker drivers stop by tolerance -/

namespace Properties

open Model Finset

variable {N : ℕ} {dims rk : Fin N → ℕ} {V : Tensor ℝ} {W : List (Tensor ℝ)}

theorem lastNorm_ge {tested : ℕ → Prop} {n0 : ℝ} {nrm : ℕ → ℝ} {t : ℕ} (ht : tested t) :
    ∀ k, t < k → ∃ t', t ≤ t' ∧ t' < k ∧ lastNorm tested n0 nrm k = nrm t' := by
  intro k
  induction k with
  | zero => intro h; omega
  | succ k ih =>
    intro h
    unfold lastNorm
    by_cases hk : tested k
    · exact ⟨k, by omega, by omega, by rw [if_pos hk]⟩
    · have : t < k := by
        rcases Nat.lt_or_ge t k with h' | h'
        · exact h'
        · exact absurd (by rwa [show k = t by omega]) hk
      obtain ⟨t', a, b, c⟩ := ih this
      exact ⟨t', a, by omega, by rw [if_neg hk, c]⟩

/-- A nondecreasing sequence between 0 and `B` changes by less than `tol` between consecutive tests, at the latest in the
`B/tol + 2`-nd of the tests made every `s` steps; more tests may be made in between. -/
theorem tests_pass {tested : ℕ → Prop} {n0 : ℝ} {nrm : ℕ → ℝ} {B tol : ℝ} (hmono : ∀ k, 1 ≤ k → nrm k ≤ nrm (k + 1))
    (h0 : ∀ k, 0 ≤ nrm k) (hB : ∀ k, 1 ≤ k → nrm k ≤ B) (ht : 0 < tol) {s : ℕ} (hs : 1 ≤ s)
    (htest : ∀ m, 1 ≤ m → tested (m * s)) :
    ∃ m : ℕ, 1 ≤ m ∧ (m : ℝ) ≤ B / tol + 2 ∧ |nrm (m * s) - lastNorm tested n0 nrm (m * s)| < tol := by
  by_contra hcon
  push Not at hcon
  have hm : ∀ i j, 1 ≤ i → i ≤ j → nrm i ≤ nrm j := by
    intro i j hi hij
    induction j, hij using Nat.le_induction with
    | base => exact le_rfl
    | succ j hj ih => exact ih.trans (hmono j (by omega))
  have hB0 : 0 ≤ B := (h0 1).trans (hB 1 le_rfl)
  set M : ℕ := ⌊B / tol⌋₊ + 1 with hM
  have hfl : (⌊B / tol⌋₊ : ℝ) ≤ B / tol := Nat.floor_le (div_nonneg hB0 ht.le)
  have hlow : ∀ m ≤ M, nrm s + m * tol ≤ nrm ((m + 1) * s) := by
    intro m
    induction m with
    | zero => intro _; simp
    | succ m ih =>
      intro hmM
      have h1 := hcon (m + 2) (by omega) (by
        have : (m : ℝ) ≤ ⌊B / tol⌋₊ := by exact_mod_cast (by omega : m ≤ ⌊B / tol⌋₊)
        push_cast
        linarith)
      have hlt : (m + 1) * s < (m + 2) * s := Nat.mul_lt_mul_of_pos_right (by omega) hs
      have h1s : 1 ≤ (m + 1) * s := Nat.mul_pos (by omega) hs
      obtain ⟨t', t1, t2, t3⟩ := lastNorm_ge (n0 := n0) (nrm := nrm) (htest (m + 1) (by omega)) _ hlt
      have h2 := hm _ _ h1s t1
      have h3 := hm t' ((m + 2) * s) (by omega) (by omega)
      rw [t3, abs_of_nonneg (by linarith)] at h1
      have h4 := ih (by omega)
      have e : (m + 1 + 1) * s = (m + 2) * s := by ring
      rw [e]
      push_cast
      linarith
  have h1 := hlow M le_rfl
  have h2 := hB ((M + 1) * s) (Nat.mul_pos (by omega) hs)
  have h3 := h0 s
  have h4 : B < M * tol := by
    have := Nat.lt_floor_add_one (B / tol)
    rw [div_lt_iff₀ ht] at this
    rw [hM]
    push_cast
    exact this
  linarith

/-- The norm of the core of orthonormal factors is at most the norm of the tensor. -/
theorem coreNorm_le (hV : V.lens = List.ofFn dims) (hW : ∀ j : Fin N, Spec.Orthonormal (dims j) (rk j) (mats W j)) :
    coreNorm dims rk V W ≤ norm2 V := by
  unfold coreNorm norm2
  refine Real.sqrt_le_sqrt ?_
  have h1 := C38_error_identity (Vv := arr V N) hW
  have h2 : 0 ≤ Spec.tuckErrSq dims rk (arr V N) (mats W) := by
    unfold Spec.tuckErrSq
    exact sum_nonneg fun _ _ => sq_nonneg _
  rw [sqNorm_eq hV]
  unfold Spec.sumSq at h1
  linarith

/-- How the core norm develops when every sweep is a run of best updates. -/
theorem Monotone.norms {Ws : ℕ → List (Tensor ℝ)} (H : Monotone dims rk V Ws) :
    (∀ k, 1 ≤ k → coreNorm dims rk V (Ws k) ≤ coreNorm dims rk V (Ws (k + 1))) ∧
    (∀ k, 0 ≤ coreNorm dims rk V (Ws k)) ∧ ∀ k, 1 ≤ k → coreNorm dims rk V (Ws k) ≤ norm2 V :=
  ⟨fun k hk => Real.sqrt_le_sqrt (H.2.2 k (.inl hk)).1, fun _ => Real.sqrt_nonneg _,
    fun k hk => coreNorm_le (H.1 k).lensV (H.2.1 k hk)⟩

/-- What both drivers guarantee when `maxiter` is large enough for `period`: see the theorems below. -/
structure TuckStops (dims rk : Fin N → ℕ) (V : Tensor ℝ) (tested : ℕ → Prop) (n0 tol timelimit : ℝ) (period : ℕ)
    (clock : ℕ → ℝ) (Ws : ℕ → List (Tensor ℝ)) (r : LLEnd TuckState) : Prop where
  result : r.st.W = Ws r.iter ∧ IsCore dims rk V r.st.W r.st.core
  stopped : r.ret = true
  early : (r.iter : ℝ) ≤ period * (norm2 V / tol + 2)
  reason : timelimit < clock r.iter ∨
    |coreNorm dims rk V (Ws r.iter) - lastNorm tested n0 (fun n => coreNorm dims rk V (Ws n)) r.iter| < tol

theorem tuckStops_of {tested : ℕ → Prop} {n0 tol timelimit : ℝ} {period : ℕ} {clock : ℕ → ℝ} {Ws : ℕ → List (Tensor ℝ)}
    {r : LLEnd TuckState} {maxiter : ℤ} (hM : Monotone dims rk V Ws) (ht : 0 < tol) (hs : 1 ≤ period)
    (htest : ∀ m, 1 ≤ m → tested (m * period)) (hmax : period * (norm2 V / tol + 2) ≤ (maxiter : ℝ))
    (hf : FirstStop (fun n => tested n ∧
        (|coreNorm dims rk V (Ws n) - lastNorm tested n0 (fun n => coreNorm dims rk V (Ws n)) n| < tol ∨
          timelimit < clock n)) maxiter r.iter r.ret)
    (hW : r.st.W = Ws r.iter) (hc : r.ret = true → IsCore dims rk V r.st.W r.st.core) :
    TuckStops dims rk V tested n0 tol timelimit period clock Ws r := by
  obtain ⟨m, m1, m2, m3⟩ := tests_pass (n0 := n0) hM.norms.1 hM.norms.2.1 hM.norms.2.2 ht hs htest
  have hle : r.iter ≤ m * period := by
    by_contra h
    exact hf.before _ (by omega) ⟨htest m m1, .inl m3⟩
  have hbd : ((m * period : ℕ) : ℝ) ≤ period * (norm2 V / tol + 2) := by
    push_cast
    rw [mul_comm]
    exact mul_le_mul_of_nonneg_left m2 (Nat.cast_nonneg _)
  have hit : (r.iter : ℝ) ≤ period * (norm2 V / tol + 2) := le_trans (by exact_mod_cast hle) hbd
  have hret : r.ret = true := by
    by_contra h
    have := hf.no.1 (by simpa using h)
    have h2 : ((r.iter : ℤ) : ℝ) = (maxiter : ℝ) + 1 := by exact_mod_cast this
    have h3 : (r.iter : ℝ) = (maxiter : ℝ) + 1 := by exact_mod_cast h2
    linarith
  refine ⟨⟨hW, hc hret⟩, hret, hit, ?_⟩
  rcases (hf.yes.1 hret).2.2 with h | h
  · exact .inr h
  · exact .inl h

/-- **C66 (`alsTucker`).** Orders 2..10, any start, any core passed in, any `tol > 0`, an SVD returning the leading singular
vectors: if `maxiter ≥ 100 (‖V‖/tol + 2)` the call returns `true`, after at most that many sweeps, with the core of the factors
it returns: either the time was up or the core norm changed by less than `tol` since the last test. -/
theorem C66_tucker (h2 : 2 ≤ N) (hN : N ≤ 10) (hr : ∀ j, rk j ≤ dims j) (hS : TuckShaped dims rk V W) {core : Tensor ℝ}
    (hcore : core.lens = List.ofFn rk) {k : Kern ℝ} (hk : SvdShape k) (hl : SvdLeading k) {tol : ℝ} (ht : 0 < tol) (timelimit : ℝ)
    {maxiter : ℤ} (hmax : 100 * (norm2 V / tol + 2) ≤ (maxiter : ℝ)) (clock : ℕ → ℝ) {fuel : ℕ} (hf : (maxiter + 1).toNat < fuel) :
    ∃ (r : LLEnd TuckState) (Ws : ℕ → List (Tensor ℝ)), alsTucker k V tol timelimit maxiter clock fuel core W = .ok r ∧
      (∀ n, iterM (tuckSweep k V (List.ofFn rk)) n W = .ok (Ws n)) ∧
      TuckStops dims rk V (tuckTested maxiter) (norm2 core) tol timelimit 100 clock Ws r := by
  have h0 : 0 ≤ maxiter := by
    have : 0 ≤ norm2 V / tol := div_nonneg (Real.sqrt_nonneg _) ht.le
    have : (0 : ℝ) ≤ (maxiter : ℝ) := by linarith
    exact_mod_cast this
  obtain ⟨r, Ws, r1, r2, r3, r4, r5, -⟩ := C48_tucker h2 hN hr hS hcore hk tol timelimit h0 clock hf
  obtain ⟨Ws', -, w2, w3⟩ := C38_direct_monotone h2 hN hr hS hk hl
  have e : Ws = Ws' := by
    funext n
    have := r2 n
    rw [w2 n] at this
    exact (Except.ok.inj this).symm
  subst e
  refine ⟨r, Ws, r1, r2, tuckStops_of w3 ht (by norm_num) (fun m hm => .inl ⟨by omega, by omega⟩) (by exact_mod_cast hmax) r4 r3 r5⟩

/-- **C66 (`alsTucker_DT`).** Orders 4, 6..10, with `resprint > 0` in place of 100. -/
theorem C66_tucker_dt (h4 : 4 ≤ N) (h5 : N ≠ 5) (hN : N ≤ 10) (hr : ∀ j, rk j ≤ dims j) (hS : TuckShaped dims rk V W)
    {core : Tensor ℝ} (hcore : core.lens = List.ofFn rk) {k : Kern ℝ} (hk : SvdShape k) (hl : SvdLeading k) {a : LLArgs}
    (ht : 0 < a.tol) (hres : 0 < a.resprint) (hmax : a.resprint * (norm2 V / a.tol + 2) ≤ (a.maxiter : ℝ)) (clock : ℕ → ℝ)
    {fuel : ℕ} (hf : (a.maxiter + 1).toNat < fuel) :
    ∃ (r : LLEnd TuckState) (Ws : ℕ → List (Tensor ℝ)), alsTuckerDT k V a clock fuel core W = .ok r ∧ Ws 0 = W ∧
      (∀ n, ∃ C, tuckSweepDT k V (List.ofFn rk) (Ws n) = .ok (Ws (n + 1), C)) ∧
      TuckStops dims rk V (tuckDTTested a) (norm2 core) a.tol a.timelimit a.resprint.toNat clock Ws r := by
  have hrc : ((a.resprint.toNat : ℕ) : ℝ) = (a.resprint : ℝ) := by
    have : ((a.resprint.toNat : ℕ) : ℤ) = a.resprint := Int.toNat_of_nonneg hres.le
    exact_mod_cast congrArg (fun z : ℤ => (z : ℝ)) this
  have h0 : 0 ≤ a.maxiter := by
    have h1 : 0 ≤ norm2 V / a.tol := div_nonneg (Real.sqrt_nonneg _) ht.le
    have h2 : (0 : ℝ) ≤ a.resprint := by exact_mod_cast hres.le
    have : (0 : ℝ) ≤ (a.maxiter : ℝ) := le_trans (mul_nonneg h2 (by linarith)) hmax
    exact_mod_cast this
  obtain ⟨r, Ws, r1, r0, r2, r3, r4, r5, -⟩ := C48_tucker_dt h4 h5 hN hr hS hcore hk h0 hres.ne' clock hf
  obtain ⟨Ws', Cs, w1, w3, w2⟩ := C38_dt_monotone h4 h5 (by omega) hr hS hk hl core
  have e : Ws = Ws' := by
    funext n
    induction n with
    | zero => rw [r0, w1]
    | succ n ih =>
      obtain ⟨C, c⟩ := r2 n
      have := (w2 (n + 1)).1
      rw [iterM_succ_right, (w2 n).1] at this
      simp only [bind, Except.bind] at this
      rw [← ih, c] at this
      exact congrArg Prod.fst (Except.ok.inj this)
  subst e
  refine ⟨r, Ws, r1, r0, r2, tuckStops_of w3 ht (by omega) (fun m hm => .inl ⟨?_, ?_⟩) (by rw [hrc]; exact hmax) r4 r3 fun _ => r5⟩
  · have : ((m * a.resprint.toNat : ℕ) : ℤ) = m * a.resprint := by
      push_cast
      rw [Int.toNat_of_nonneg hres.le]
    rw [this]
    exact Int.mul_tmod_left _ _
  · exact (Nat.mul_pos hm (by omega)).ne'

/-! ## Convergence of the sweeps -/

section Limit

open Function Topology
open Filter (Tendsto atTop)

/-- Entrywise convergence of Tucker factors, on the entries that exist. -/
def TuckTendsto (dims rk : Fin N → ℕ) (u : ℕ → Fin N → ℕ → ℕ → ℝ) (F : Fin N → ℕ → ℕ → ℝ) : Prop :=
  ∀ j, ∀ x < dims j, ∀ r < rk j, Tendsto (fun n => u n j x r) atTop (𝓝 (F j x r))

theorem coreNormSq_tendsto {u : ℕ → Fin N → ℕ → ℕ → ℝ} {F : Fin N → ℕ → ℕ → ℝ} (h : TuckTendsto dims rk u F)
    (Vv : (Fin N → ℕ) → ℝ) :
    Tendsto (fun n => Spec.coreNormSq dims rk Vv (u n)) atTop (𝓝 (Spec.coreNormSq dims rk Vv F)) := by
  unfold Spec.coreNormSq Spec.sumSq Spec.multiTTM
  refine tendsto_finsetSum _ fun z hz => Tendsto.pow (tendsto_finsetSum _ fun idx hi => Tendsto.const_mul _ ?_) 2
  have hi := Spec.mem_Box.1 (mem_filter.1 hi).1
  have hz := Spec.mem_Box.1 hz
  exact tendsto_finsetProd _ fun j _ => h j _ (hi j) _ (hz j)

theorem TuckTendsto.update {u : ℕ → Fin N → ℕ → ℕ → ℝ} {F : Fin N → ℕ → ℕ → ℝ} (h : TuckTendsto dims rk u F) (i : Fin N)
    (B : ℕ → ℕ → ℝ) : TuckTendsto dims rk (fun n => Function.update (u n) i B) (Function.update F i B) := by
  intro j x hx r hr
  by_cases e : j = i
  · subst e
    simp only [update_self]
    exact tendsto_const_nhds
  · simp only [update_of_ne e]
    exact h j x hx r hr

theorem TuckTendsto.orthonormal {u : ℕ → Fin N → ℕ → ℕ → ℝ} {F : Fin N → ℕ → ℕ → ℝ} (h : TuckTendsto dims rk u F) {j : Fin N}
    (ho : ∀ n, 1 ≤ n → Spec.Orthonormal (dims j) (rk j) (u n j)) : Spec.Orthonormal (dims j) (rk j) (F j) := by
  intro a ha b hb
  have h1 : Tendsto (fun n => Spec.gram (dims j) (u n j) a b) atTop (𝓝 (Spec.gram (dims j) (F j) a b)) := by
    unfold Spec.gram
    exact tendsto_finsetSum _ fun x hx => (h j x (mem_range.1 hx) a ha).mul (h j x (mem_range.1 hx) b hb)
  refine tendsto_nhds_unique h1 (tendsto_const_nhds.congr' ?_)
  filter_upwards [Filter.eventually_ge_atTop 1] with n hn
  exact (ho n hn a ha b hb).symm

/-- The entries of a matrix with orthonormal columns are at most 1. -/
theorem orthonormal_entry {n r : ℕ} {M : ℕ → ℕ → ℝ} (h : Spec.Orthonormal n r M) {x a : ℕ} (hx : x < n) (ha : a < r) :
    |M x a| ≤ 1 := by
  have h1 := h a ha a ha
  rw [if_pos rfl] at h1
  unfold Spec.gram at h1
  have h2 : M x a * M x a ≤ 1 := by
    rw [← h1]
    exact single_le_sum (f := fun x => M x a * M x a) (fun _ _ => mul_self_nonneg _) (mem_range.2 hx)
  exact abs_le_one_iff_mul_self_le_one.2 h2

/-- What can be said about the limit of the sweeps `Ws`. -/
structure HooiLimit (dims rk : Fin N → ℕ) (V : Tensor ℝ) (Ws : ℕ → List (Tensor ℝ)) : Prop where
  /-- The core norm converges to some `L`, and the squared error to `‖V‖² - L`. -/
  values : ∃ L, L ≤ Spec.sumSq dims (arr V N) ∧
    Tendsto (fun n => Spec.coreNormSq dims rk (arr V N) (mats (Ws n))) atTop (𝓝 L) ∧
    Tendsto (fun n => Spec.tuckErrSq dims rk (arr V N) (mats (Ws n))) atTop (𝓝 (Spec.sumSq dims (arr V N) - L))
  /-- Some subsequence of the factors converges. -/
  subseq : ∃ (F : Fin N → ℕ → ℕ → ℝ) (φ : ℕ → ℕ), StrictMono φ ∧ TuckTendsto dims rk (fun n => mats (Ws (φ n))) F
  /-- The limit of a subsequence is orthonormal, attains the limit of the core norms, and cannot be improved by another
  orthonormal factor in the first mode alone nor in the last mode alone. -/
  limit : ∀ (F : Fin N → ℕ → ℕ → ℝ) (φ : ℕ → ℕ), StrictMono φ → TuckTendsto dims rk (fun n => mats (Ws (φ n))) F →
    (∀ j, Spec.Orthonormal (dims j) (rk j) (F j)) ∧
    Tendsto (fun n => Spec.coreNormSq dims rk (arr V N) (mats (Ws n))) atTop (𝓝 (Spec.coreNormSq dims rk (arr V N) F)) ∧
    ∀ i : Fin N, i.1 = 0 ∨ i.1 + 1 = N → ∀ B, Spec.Orthonormal (dims i) (rk i) B →
      Spec.coreNormSq dims rk (arr V N) (update F i B) ≤ Spec.coreNormSq dims rk (arr V N) F

/-- In a run of best updates from orthonormal factors the core norm grows with every update. -/
theorem BestRun.steps {st : ℕ → List (Tensor ℝ)} (hS : TuckShaped dims rk V (st 0)) (h0 : AllOrtho dims rk (st 0))
    (h : ∀ i : Fin N, i.1 < N → BestMode dims rk V (st i.1) (st (i.1 + 1)) i) {m n : ℕ} (hmn : m ≤ n) (hn : n ≤ N) :
    coreSq dims rk V (mats (st m)) ≤ coreSq dims rk V (mats (st n)) := by
  have hrun : ∀ m ≤ N, AllOrtho dims rk (st m) := fun m hm =>
    ((BestRun.spec hm hS ⟨st, rfl, rfl, fun i _ => h i i.2⟩).2.2 h0).1
  induction n, hmn using Nat.le_induction with
  | base => exact le_rfl
  | succ n hmn ih =>
    refine (ih (by omega)).trans ?_
    have hb := h ⟨n, by omega⟩ (by simp only; omega)
    have := hb.2.2 (mats (st n) ⟨n, by omega⟩) (hrun n (by omega) _)
    rwa [update_eq_self] at this

theorem hooiLimit_of {Ws : ℕ → List (Tensor ℝ)} (h1 : 1 ≤ N) (hM : Monotone dims rk V Ws)
    (hB : ∀ n, BestRun dims rk V (Ws n) (Ws (n + 1)) N) : HooiLimit dims rk V Ws := by
  have hle : ∀ n, 1 ≤ n → Spec.coreNormSq dims rk (arr V N) (mats (Ws n)) ≤ Spec.sumSq dims (arr V N) := by
    intro n hn
    have e := C38_error_identity (Vv := arr V N) (hM.2.1 n hn)
    have : 0 ≤ Spec.tuckErrSq dims rk (arr V N) (mats (Ws n)) := by
      unfold Spec.tuckErrSq
      exact sum_nonneg fun _ _ => sq_nonneg _
    linarith
  have hmono : _root_.Monotone fun n => Spec.coreNormSq dims rk (arr V N) (mats (Ws (n + 1))) :=
    monotone_nat_of_le_succ fun n => (hM.2.2 (n + 1) (.inl (by omega))).1
  obtain ⟨L, hL⟩ : ∃ L, Tendsto (fun n => Spec.coreNormSq dims rk (arr V N) (mats (Ws n))) atTop (𝓝 L) := by
    refine ⟨_, (Filter.tendsto_add_atTop_iff_nat 1).1 (tendsto_atTop_ciSup hmono ⟨Spec.sumSq dims (arr V N), ?_⟩)⟩
    rintro _ ⟨n, rfl⟩
    exact hle (n + 1) (by omega)
  have hLle : L ≤ Spec.sumSq dims (arr V N) :=
    le_of_tendsto hL (by filter_upwards [Filter.eventually_ge_atTop 1] with n hn using hle n hn)
  refine ⟨⟨L, hLle, hL, ?_⟩, ?_, ?_⟩
  · refine (tendsto_const_nhds.sub hL).congr' ?_
    filter_upwards [Filter.eventually_ge_atTop 1] with n hn
    exact (C38_error_identity (Vv := arr V N) (hM.2.1 n hn)).symm
  · set R := ∑ j, rk j with hR
    have hj : ∀ j, rk j ≤ R := fun j => single_le_sum (f := rk) (fun _ _ => Nat.zero_le _) (mem_univ j)
    obtain ⟨F, φ, f1, f2⟩ := Spec.exists_facTendsto (dims := dims) (R := R) (C := 1)
      (u := fun n j => Spec.clip (dims j) (rk j) (mats (Ws (n + 1)) j)) (by
        intro n j x hx r hr
        simp only [Spec.clip]
        by_cases e : x < dims j ∧ r < rk j
        · rw [if_pos e]
          exact orthonormal_entry (hM.2.1 (n + 1) (by omega) j) e.1 e.2
        · rw [if_neg e]; simp)
    refine ⟨F, fun n => φ n + 1, fun a b hab => Nat.succ_lt_succ (f1 hab), fun j x hx r hr => ?_⟩
    have := f2 j x hx r (by have := hj j; omega)
    simpa [Spec.clip, hx, hr] using this
  · intro F φ hφ hF
    have hge : ∀ n, 1 ≤ n → 1 ≤ φ n := fun n hn => hn.trans (hφ.id_le n)
    have hFL := coreNormSq_tendsto hF (arr V N)
    have hLF : L = Spec.coreNormSq dims rk (arr V N) F := tendsto_nhds_unique (hL.comp hφ.tendsto_atTop) hFL
    refine ⟨fun j => hF.orthonormal (j := j) fun n hn => hM.2.1 _ (hge n hn) j, by rw [← hLF]; exact hL, ?_⟩
    intro i hi B hBo
    have hBt := coreNormSq_tendsto (hF.update i B) (arr V N)
    rcases hi with hi | hi
    · have hnext : Tendsto (fun n => Spec.coreNormSq dims rk (arr V N) (mats (Ws (φ n + 1)))) atTop (𝓝 L) :=
        ((Filter.tendsto_add_atTop_iff_nat 1).2 hL).comp hφ.tendsto_atTop
      rw [← hLF]
      refine le_of_tendsto_of_tendsto hBt hnext ?_
      filter_upwards [Filter.eventually_ge_atTop 1] with n hn
      obtain ⟨st, s1, s2, s3⟩ := hB (φ n)
      have hb := (s3 i i.2).2.2 B hBo
      rw [hi, s1] at hb
      refine hb.trans ?_
      have := BestRun.steps (st := st) (dims := dims) (rk := rk) (V := V) (by rw [s1]; exact hM.1 _)
        (by rw [s1]; exact hM.2.1 _ (hge n hn)) s3 (m := 0 + 1) (n := N) (by omega) le_rfl
      rw [s2] at this
      exact this
    · refine le_of_tendsto_of_tendsto hBt hFL ?_
      filter_upwards [Filter.eventually_ge_atTop 1] with n hn
      obtain ⟨m, hm⟩ : ∃ m, φ n = m + 1 := ⟨φ n - 1, by have := hge n hn; omega⟩
      obtain ⟨st, s1, s2, s3⟩ := hB m
      have hb := s3 i i.2
      rw [hi, s2] at hb
      rw [hm]
      refine le_trans (le_of_eq ?_) (hb.2.2 B hBo)
      unfold coreSq Spec.coreNormSq
      congr 2
      funext j
      by_cases e : j = i
      · subst e; simp
      · rw [update_of_ne e, update_of_ne e]
        obtain ⟨⟨U, _, e'⟩, _⟩ := hb
        rw [e']
        exact mats_set_ne U e

/-- **C66 (limits, `alsTucker`).** -/
theorem C66_tucker_limit (h2 : 2 ≤ N) (hN : N ≤ 10) (hr : ∀ j, rk j ≤ dims j) (hS : TuckShaped dims rk V W)
    {k : Kern ℝ} (hk : SvdShape k) (hl : SvdLeading k) :
    ∃ Ws : ℕ → List (Tensor ℝ), (∀ n, iterM (tuckSweep k V (List.ofFn rk)) n W = .ok (Ws n)) ∧ HooiLimit dims rk V Ws := by
  obtain ⟨Ws, w1, w2, w3⟩ := iterM_seq (step := tuckSweep k V (List.ofFn rk)) (P := TuckShaped dims rk V)
    (R := fun a b => BestRun dims rk V a b N) (by
      intro W hS
      obtain ⟨W', a, b, c⟩ := tuckSweep_ok h2 hN hr hS hk
      exact ⟨W', a, b, c.best hl hr le_rfl hS⟩) hS
  exact ⟨Ws, w2, hooiLimit_of (by omega) (monotone_of_best (w3 0).1 fun n _ => (w3 n).2) fun n => (w3 n).2⟩

/-- **C66 (limits, `alsTucker_DT`).** -/
theorem C66_tucker_dt_limit (h4 : 4 ≤ N) (h5 : N ≠ 5) (hN : N ≤ 18) (hr : ∀ j, rk j ≤ dims j) (hS : TuckShaped dims rk V W)
    {k : Kern ℝ} (hk : SvdShape k) (hl : SvdLeading k) :
    ∃ Ws : ℕ → List (Tensor ℝ), Ws 0 = W ∧ (∀ n, ∃ C, tuckSweepDT k V (List.ofFn rk) (Ws n) = .ok (Ws (n + 1), C)) ∧
      HooiLimit dims rk V Ws := by
  obtain ⟨f, w1, w2, w3⟩ := iterM_seq (s := W)
    (step := fun s : List (Tensor ℝ) => do let r ← tuckSweepDT k V (List.ofFn rk) s; pure r.1)
    (P := TuckShaped dims rk V) (R := fun a b => BestRun dims rk V a b N ∧ ∃ C, tuckSweepDT k V (List.ofFn rk) a = .ok (b, C)) (by
      intro s hS
      obtain ⟨W', C, a, b, c, _, e⟩ := tuckSweepDT_ok h4 h5 hN hr hS hk
      refine ⟨W', ?_, b, c.best hl hr le_rfl hS, C, a⟩
      simp only [bind, Except.bind, pure, Except.pure]
      rw [a]) hS
  exact ⟨f, w1, fun n => (w3 n).2.2, hooiLimit_of (by omega) (monotone_of_best (w3 0).1 fun n _ => (w3 n).2.1) fun n => (w3 n).2.1⟩

end Limit

/-! Non-vacuity. -/

example : ∃ (k : Kern ℝ) (m : ℤ) (core : Tensor ℝ) (r : LLEnd TuckState), SvdShape k ∧ SvdLeading k ∧
    alsTucker k exTuckV (1 / 1000) 60 m (fun _ => 0) ((m + 1).toNat + 1) core exTuckW = .ok r ∧ r.ret = true := by
  obtain ⟨k, hl, hk⟩ := exists_svdLeading
  obtain ⟨r, _, h1, _, h2⟩ := C66_tucker (by norm_num) (by norm_num) exTuckRank exTuckShaped (core := ⟨[1, 2, 1, 3], fun _ => 7⟩) rfl hk hl
    (tol := 1 / 1000) (by norm_num) 60 (Int.le_ceil _) (fun _ => 0) (Nat.lt_succ_self _)
  exact ⟨k, _, _, r, hk, hl, h1, h2.stopped⟩

example : ∃ (k : Kern ℝ) (m : ℤ) (core : Tensor ℝ) (r : LLEnd TuckState), SvdShape k ∧ SvdLeading k ∧
    alsTuckerDT k exTuckV ⟨1 / 1000, 60, m, 10⟩ (fun _ => 0) ((m + 1).toNat + 1) core exTuckW = .ok r ∧ r.ret = true := by
  obtain ⟨k, hl, hk⟩ := exists_svdLeading
  obtain ⟨r, _, h1, _, _, h2⟩ := C66_tucker_dt (by norm_num) (by norm_num) (by norm_num) exTuckRank exTuckShaped
    (core := ⟨[1, 2, 1, 3], fun _ => 7⟩) rfl hk hl (a := ⟨1 / 1000, 60, ⌈((10 : ℤ) : ℝ) * (norm2 exTuckV / (1 / 1000) + 2)⌉, 10⟩)
    (by norm_num) (by norm_num) (Int.le_ceil _) (fun _ => 0) (Nat.lt_succ_self _)
  exact ⟨k, _, _, r, hk, hl, h1, h2.stopped⟩

example : ∃ (k : Kern ℝ) (Ws : ℕ → List (Tensor ℝ)), HooiLimit ![2, 3, 1, 4] ![1, 2, 1, 3] exTuckV Ws ∧ Ws 0 = exTuckW := by
  obtain ⟨k, hl, hk⟩ := exists_svdLeading
  obtain ⟨Ws, h1, _, h2⟩ := C66_tucker_dt_limit (by norm_num) (by norm_num) (by norm_num) exTuckRank exTuckShaped hk hl
  exact ⟨k, Ws, h2, h1⟩

end Properties
