import Verif.Properties.MainTensor
import Verif.Proofs.Ieee
import Verif.Properties.PartDriver
import Verif.Properties.TuckPP
import Verif.Properties.TuckLoop

/-! # C57: `main` of test_ALS.cxx -/

namespace Properties

open Model Finset

/-- Number of modes and mode lengths of the tensor, as a function of the options. -/
def MainDims (o : Opts) {N : ℕ} (dims : Fin N → ℕ) : Prop :=
  tensorLens (tensorKind o.tensor) o.dim.toNat o.size.toNat = .ok (List.ofFn dims)

theorem input_lens {E : MainEnv} {o : Opts} {V : Tensor ℝ} (h : InputSpec E o V) {N : ℕ} {dims : Fin N → ℕ} (hd : MainDims o dims)
    (h4 : InputOk E o) : V.lens = List.ofFn dims := by
  unfold InputSpec at h
  unfold MainDims at hd
  unfold InputOk at h4
  cases hk : tensorKind o.tensor with
  | poisson =>
    rw [hk] at h hd
    obtain ⟨d, h1, h2, -⟩ := h
    simp only [tensorLens, show o.dim.toNat / 2 = d by omega] at hd
    rw [h2, Except.ok.inj hd]
  | poisson2 =>
    rw [hk] at h hd
    obtain ⟨d, h1, h2, -⟩ := h
    simp only [tensorLens, show o.dim.toNat = 2 * d by omega] at hd
    rw [h2, Except.ok.inj hd]
  | collinear =>
    rw [hk] at h hd
    obtain ⟨X, D, a, h2, -⟩ := h
    rw [h2, Except.ok.inj hd]
  | random =>
    rw [hk] at h hd
    rw [h.1, Except.ok.inj hd]
  | random2 =>
    rw [hk] at h hd
    rw [h.1, Except.ok.inj hd]
  | coil =>
    rw [hk] at h hd h4
    simp only at h4
    simp only [tensorLens, h4, Int.reduceToNat, if_true] at hd
    rw [h.1, Except.ok.inj hd]
  | timelapse =>
    rw [hk] at h hd h4
    simp only at h4
    simp only [tensorLens, h4, Int.reduceToNat, if_true] at hd
    rw [h.1, Except.ok.inj hd]
  | none => rw [hk] at h; exact h.elim

theorem testMain_of {E : MainEnv} {o : Opts} {fuel : ℕ} {V : Tensor ℝ} (h : mainTensor E o = .ok V) {out : MainOut}
    (hd : mainDrive E fuel o V = .ok out) : testMain E fuel o = .ok (V, out) := by
  unfold testMain
  rw [h]
  simp only [bind, Except.bind]
  rw [hd]
  rfl

theorem testMain_err {E : MainEnv} {o : Opts} {fuel : ℕ} {V : Tensor ℝ} (h : mainTensor E o = .ok V) {e : Fault}
    (hd : mainDrive E fuel o V = .error e) : testMain E fuel o = .error e := by
  unfold testMain
  rw [h]
  simp only [bind, Except.bind]
  rw [hd]

section

variable {N : ℕ} {dims : Fin N → ℕ} {E : MainEnv} {o : Opts}

/-- What the user gets from `-model CP` (exact arithmetic): for `-pp 0` the factors after `iter` ALS sweeps from the random start,
`iter` the first printed iteration at which the stored gradient is below `tol * ‖V‖` or the time is up, else `maxiter + 1`, and a log
line per printed iteration with the true residual; for `-pp 1`, `-pp 2` a last measured gradient norm of at most `tol * ‖V‖`, or
`maxiter + 1` iterations. -/
def CPOutcome (E : MainEnv) (o : Opts) (dims : Fin N → ℕ) (V : Tensor ℝ) : MainOut → Prop
  | .cpDT r => o.pp = 0 ∧ ∃ (tr : ℕ → Fac ℝ) (g : ℕ → ℝ) (F : List (Tensor ℝ)), Shaped dims o.R.toNat V F ∧
      (∀ j, ∀ x < dims j, ∀ q < o.R.toNat, mats F j x q = 0) ∧
      (∀ k, iterM (legacySweep N o.R.toNat o.lambda.toReal E.solve V F) k
        ⟨fillMats (List.ofFn dims) o.R.toNat E.w0, fillMats (List.ofFn dims) o.R.toNat E.g0⟩ = .ok (tr k)) ∧ r.st = tr r.iter ∧
      (∀ k, gradnorm (tr k).G N = .ok (g k)) ∧
      FirstStop (fun k => (Int.tmod (k : ℤ) o.resprint = 0 ∨ (k : ℤ) = o.maxiter) ∧
        (g k < o.tol.toReal * norm2 V ∨ o.timelimit.toReal < E.clock k)) o.maxiter r.iter r.ret ∧
      ∀ row, row ∈ r.rows ↔ ∃ k, (k ≤ r.iter ∧ (k : ℤ) ≤ o.maxiter) ∧
        (Int.tmod (k : ℤ) o.resprint = 0 ∨ (k : ℤ) = o.maxiter) ∧
        row = (k, g k, Real.sqrt (∑ idx ∈ Spec.Box dims, (arr V N idx - Spec.recon o.R.toNat (mats (tr k).W) idx) ^ 2))
  | .cpPP r ret => o.pp = 1 ∧ (r.grad ≤ o.tol.toReal * norm2 V ∨ (r.iter : ℤ) = o.maxiter + 1) ∧ (r.iter : ℤ) ≤ o.maxiter + 1 ∧
      (ret = true ↔ (r.iter : ℤ) ≠ o.maxiter + 1) ∧ (ret = true → r.grad ≤ o.tol.toReal * norm2 V) ∧
      Shaped dims o.R.toNat V r.st.W
  | .cpPart r ret => o.pp = 2 ∧ (r.grad ≤ o.tol.toReal * norm2 V ∨ (r.iter : ℤ) = o.maxiter + 1) ∧ (r.iter : ℤ) ≤ o.maxiter + 1 ∧
      (ret = true ↔ (r.iter : ℤ) ≠ o.maxiter + 1) ∧ (ret = true → r.grad ≤ o.tol.toReal * norm2 V) ∧
      Shaped dims o.R.toNat V r.st.cp.W
  | _ => False

/-- **C57 (`-model CP`).** For every command line whose options are finite numbers with `-resprint` not 0, every `-tensor` value whose
tensor can be built (`InputOk`) and has order 4, 6, 7, 8 or 9, all random numbers, MPI ranks and library kernels satisfying their
contracts, and (for `-pp 1`, `-pp 2`) a clock that does not pass the limit: `main` builds the documented tensor and the decomposition
ends with `CPOutcome`; with `-pp 2` it may instead call `std::sort` on values it is not defined for. -/
theorem C57_cp {atof : CStr → F64} {argv : List CStr} (ho : testOpts atof argv = .ok o) (hf : o.Finite) (hr : o.resprint ≠ 0)
    (hin : InputOk E o) (hd : MainDims o dims) (h4 : 4 ≤ N) (h5 : N ≠ 5) (h9 : N ≤ 9) (hC : o.model.head? = some 'C')
    (hk : KernOk E.kern) (hsrt : SortSpec E.srt) (hclk : o.pp ≠ 0 → ∀ t, E.clock t ≤ o.timelimit.toReal)
    {fuel : ℕ} (hfu : o.maxiter + 3 < fuel) :
    ∃ V, mainTensor E o = .ok V ∧ InputSpec E o V ∧ V.lens = List.ofFn dims ∧
      ((∃ out, testMain E fuel o = .ok (V, out) ∧ CPOutcome E o dims V out) ∨ (o.pp = 2 ∧ testMain E fuel o = .error .ub)) := by
  obtain ⟨t1, -, t3, t4, t5, -, t7, t8, t9, t10, -⟩ := C44_test_values ho
  have hpp : 0 ≤ o.pp ∧ o.pp ≤ 2 := optValid (v := fun x => 0 ≤ x ∧ x ≤ 2) t1 (by norm_num)
  have hmi : 0 ≤ o.maxiter := optValid t3 (by norm_num)
  have hpc : UnitOrNan o.updatePct := optValid t8 (Or.inr ⟨1, rfl, by norm_num⟩)
  obtain ⟨V, v1, v2⟩ := C57_tensor hin
  have hV := input_lens v2 hd hin
  refine ⟨V, v1, v2, hV, ?_⟩
  have hlen : V.lens.length = N := by rw [hV]; simp
  have hC' : o.model[0]? = some 'C' := by rw [← List.head?_eq_getElem?]; exact hC
  have hW := fillMats_shaped hV o.R.toNat E.w0
  have hG := fillMats_shaped hV o.R.toNat E.g0
  have hFz := fillMats_shaped hV o.R.toNat fun _ _ _ => 0
  have h012 : o.pp = 0 ∨ o.pp = 1 ∨ o.pp = 2 := by omega
  rcases h012 with h | h | h
  · obtain ⟨r, tr, g, r1, r2, r3, r4, r5, r6⟩ := C48_cp_dt h4 h5 (by omega) hFz
      (f := ⟨fillMats (List.ofFn dims) o.R.toNat E.w0, fillMats (List.ofFn dims) o.R.toNat E.g0⟩) hW hG.count o.lambda.toReal E.solve
      (a := ⟨o.tol.toReal * norm2 V, o.timelimit.toReal, o.maxiter, o.resprint⟩) hmi hr E.clock (fuel := fuel) (by simp only; omega)
    refine .inl ⟨.cpDT r, testMain_of v1 ?_, h, tr, g, _, hFz, fun j x hx q hq => fillMats_mats j hx hq, r2, r3, r4, r5, r6⟩
    rw [mainDrive_fin hf.tol hf.timelimit]
    unfold mainDriveR
    simp only [hV, List.length_ofFn, if_pos hC', if_pos h, bind, Except.bind]
    rw [r1]
    rfl
  · have hclk := hclk (by omega)
    obtain ⟨r, ret, r1, r2, r3, -, r5, r6⟩ := C30_terminates h4 h5 h9 E.same o.lambda.toReal o.magni.toReal o.ppResTol.toReal hk
      hW hG.count ⟨false, o.tol.toReal * norm2 V, o.timelimit.toReal, o.maxiter, o.resprint, false⟩ hmi hr E.clock hclk fuel hfu
    obtain ⟨-, -, -, e4⟩ := C30_exit h4 h5 h9 E.same o.lambda.toReal o.magni.toReal o.ppResTol.toReal hk
      hW hG.count ⟨false, o.tol.toReal * norm2 V, o.timelimit.toReal, o.maxiter, o.resprint, false⟩ hmi hr E.clock fuel hfu r ret r1
    simp only [Bool.false_eq_true, if_false] at r2 r3 r5 r6
    refine .inl ⟨.cpPP r ret, testMain_of v1 ?_, h, r2.imp id fun h => by omega, by omega, r5, r6 trivial, e4⟩
    rw [mainDrive_fin hf.tol hf.timelimit]
    unfold mainDriveR
    simp only [hV, List.length_ofFn, if_pos hC', h, if_true, bind, Except.bind]
    rw [if_neg (by norm_num)]
    rw [r1]
    rfl
  · have hclk := hclk (by omega)
    obtain ⟨p, hp⟩ := hf.updatePct
    have hp01 : 0 ≤ o.updatePct.toReal ∧ o.updatePct.toReal ≤ 1 := by
      rw [hp] at hpc ⊢
      rcases hpc with h | ⟨q, h, h1, h2⟩
      · cases h
      · cases h
        exact ⟨h1, h2⟩
    have hrun : ∀ x, alsCPPart E.same N o.R.toNat o.lambda.toReal o.magni.toReal o.ppResTol.toReal o.updatePct.toReal E.kern E.srt V
        ⟨false, o.tol.toReal * norm2 V, o.timelimit.toReal, o.maxiter, o.resprint, false⟩ E.clock fuel
        (fillMats (List.ofFn dims) o.R.toNat E.w0) (fillMats (List.ofFn dims) o.R.toNat E.g0) = x →
        mainDrive E fuel o V = (do let r ← x; pure (.cpPart r.1 r.2)) := by
      rintro x rfl
      rw [mainDrive_fin hf.tol hf.timelimit]
      unfold mainDriveR
      simp only [hV, List.length_ofFn, if_pos hC', h]
      rw [if_neg (by norm_num), if_neg (by norm_num), if_pos trivial]
    rcases C56_terminates h4 h5 h9 E.same o.lambda.toReal o.magni.toReal o.ppResTol.toReal hp01.1 hp01.2 hk hsrt
      hW hG.count ⟨false, o.tol.toReal * norm2 V, o.timelimit.toReal, o.maxiter, o.resprint, false⟩ hmi hr E.clock hclk fuel hfu with
      ⟨r, ret, r1, r2⟩ | r1
    · have r3 := r2.bound
      simp only [Bool.false_eq_true, if_false] at r3
      exact .inl ⟨.cpPart r ret, testMain_of v1 (hrun _ r1), h, r2.stop.imp id fun h => by simp only at h; omega, by omega, r2.value,
        r2.converged rfl, r2.shape⟩
    · exact .inr ⟨h, testMain_err v1 (hrun _ r1)⟩

/-- The ranks of a Tucker decomposition: `-rank`, for the data sets built-in ones. -/
def MainRanks (o : Opts) (rk : Fin N → ℕ) : Prop :=
  match tensorKind o.tensor with
  | .coil => List.ofFn rk = [3, 10, 10, 70]
  | .timelapse => List.ofFn rk = [10, 100, 100, 5]
  | _ => ∀ j, rk j = o.R.toNat

theorem mainRanks_eq {rk : Fin N → ℕ} : MainRanks o rk ↔ mainRanks o N = List.ofFn rk := by
  have key : (∀ j, rk j = o.R.toNat) ↔ List.replicate N o.R.toNat = List.ofFn rk := by
    rw [replicate_ofFn, List.ofFn_inj]
    constructor
    · intro h; funext j; exact (h j).symm
    · intro h j; rw [← h]
  unfold MainRanks mainRanks
  cases tensorKind o.tensor <;> first | exact key | exact eq_comm

/-- The ranks never exceed the mode lengths: `-rank` is at most `-size`. -/
theorem mainRanks_le (hd : MainDims o dims) (hs : 1 ≤ o.size) (hR : o.R ≤ o.size) (hin : InputOk E o) :
    ∃ rk : Fin N → ℕ, MainRanks o rk ∧ ∀ j, rk j ≤ dims j := by
  unfold MainDims at hd
  simp only [mainRanks_eq]
  unfold mainRanks
  unfold InputOk at hin
  have hrs : o.R.toNat ≤ o.size.toNat := by omega
  have key : ∀ s : ℕ, o.R.toNat ≤ s → (∃ n, List.replicate n s = List.ofFn dims) →
      ∃ rk : Fin N → ℕ, List.replicate N o.R.toNat = List.ofFn rk ∧ ∀ j, rk j ≤ dims j := by
    rintro s hs ⟨n, hn⟩
    refine ⟨fun _ => o.R.toNat, replicate_ofFn _ _, fun j => ?_⟩
    have : dims j ∈ List.replicate n s := by rw [hn]; exact (List.mem_ofFn' _ _).2 ⟨j, rfl⟩
    rw [(List.mem_replicate.1 this).2]
    exact hs
  have four : ∀ (l m : List ℕ), l.length = 4 → m.length = 4 → (∀ i, i < 4 → m.getD i 0 ≤ l.getD i 0) → l = List.ofFn dims →
      ∃ rk : Fin N → ℕ, m = List.ofFn rk ∧ ∀ j, rk j ≤ dims j := by
    intro l m hl hm hle e
    have hN : N = 4 := by rw [← hl, e, List.length_ofFn]
    have hg : ∀ j : Fin N, l.getD j 0 = dims j := by
      intro j
      rw [e, List.getD_eq_getElem?_getD, List.getElem?_ofFn, dif_pos j.2]
      rfl
    refine ⟨fun j => m.getD j 0, ?_, fun j => ?_⟩
    · apply List.ext_getElem
      · rw [List.length_ofFn, hm, hN]
      · intro i h1 h2
        rw [List.getElem_ofFn, List.getD_eq_getElem?_getD, List.getElem?_eq_getElem h1]
        rfl
    · exact (hle j (by omega)).trans_eq (hg j)
  cases hk : tensorKind o.tensor with
  | poisson =>
    rw [hk] at hd
    exact key (o.size.toNat * o.size.toNat) (by nlinarith [show 1 ≤ o.size.toNat by omega]) ⟨_, Except.ok.inj hd⟩
  | poisson2 => rw [hk] at hd; exact key _ hrs ⟨_, Except.ok.inj hd⟩
  | collinear => rw [hk] at hd; exact key _ hrs ⟨_, Except.ok.inj hd⟩
  | random => rw [hk] at hd; exact key _ hrs ⟨_, Except.ok.inj hd⟩
  | random2 => rw [hk] at hd; exact key _ hrs ⟨_, Except.ok.inj hd⟩
  | coil =>
    rw [hk] at hd hin
    simp only at hin
    simp only [tensorLens, hin, Int.reduceToNat, if_true] at hd
    refine four _ _ rfl rfl ?_ (Except.ok.inj hd)
    intro i hi
    interval_cases i <;> simp
  | timelapse =>
    rw [hk] at hd hin
    simp only at hin
    simp only [tensorLens, hin, Int.reduceToNat, if_true] at hd
    refine four _ _ rfl rfl ?_ (Except.ok.inj hd)
    intro i hi
    interval_cases i <;> simp
  | none => rw [hk] at hin; exact hin.elim

/-- `hosvd` gives orthonormal factors and their core. -/
theorem hosvd_start {rk : Fin N → ℕ} {V : Tensor ℝ} (h1 : 1 ≤ N) (hN : N ≤ 18) (hV : V.lens = List.ofFn dims)
    (hr : ∀ j, rk j ≤ dims j) {k : Kern ℝ} (hk : SvdShape k) (hl : SvdLeading k) :
    ∃ C F, hosvd k V (List.ofFn rk) = .ok (C, F) ∧ TuckShaped dims rk V F ∧ IsCore dims rk V F C ∧
      ∀ j : Fin N, Spec.Orthonormal (dims j) (rk j) (mats F j) := by
  obtain ⟨C, F, h1, h2, h3, h4, h5, -⟩ := C34_hosvd h1 hN hV hr hk
  refine ⟨C, F, h1, h2, ⟨h4, h5⟩, fun j => ?_⟩
  obtain ⟨M, m1, m2, m3⟩ := h3 j
  have hp := unfoldGram_posSemidef dims (arr V N) j m2
  have := ((hl _ _ M m1 (hr j) hp).best (hr j) hp).1
  have e : mats (N := N) F j = mat (k.svd M (rk j)).U := by
    funext x y
    unfold mats
    rw [m3]
  rw [e]
  exact this

/-- What the user gets from `-model Tucker`, `F0` being the factors of the HOSVD: orthonormal factors, their core, and for `-pp 0` a
reconstruction error at most that of the HOSVD.  `-pp 2` does nothing. -/
def TuckOutcome (o : Opts) (dims rk : Fin N → ℕ) (V : Tensor ℝ) (F0 : List (Tensor ℝ)) : MainOut → Prop
  | .tuckDT r => o.pp = 0 ∧ (r.iter : ℤ) ≤ o.maxiter + 1 ∧ (r.ret = false ↔ (r.iter : ℤ) = o.maxiter + 1) ∧
      TuckShaped dims rk V r.st.W ∧ (∀ j : Fin N, Spec.Orthonormal (dims j) (rk j) (mats r.st.W j)) ∧
      IsCore dims rk V r.st.W r.st.core ∧
      Spec.tuckErrSq dims rk (arr V N) (mats r.st.W) ≤ Spec.tuckErrSq dims rk (arr V N) (mats F0) ∧
      ∀ row ∈ r.rows, ∃ W', TuckShaped dims rk V W' ∧ row.2.2 = Real.sqrt (Spec.tuckErrSq dims rk (arr V N) (mats W')) ∧
        Spec.tuckErrSq dims rk (arr V N) (mats r.st.W) ≤ Spec.tuckErrSq dims rk (arr V N) (mats W')
  | .tuckPP r ret => o.pp = 1 ∧ (r.grad ≤ o.tol.toReal * norm2 V ∨ (r.iter : ℤ) = o.maxiter + 1) ∧ (r.iter : ℤ) ≤ o.maxiter + 1 ∧
      (ret = true ↔ (r.iter : ℤ) ≠ o.maxiter + 1) ∧ (ret = true → r.grad ≤ o.tol.toReal * norm2 V) ∧
      TuckShaped dims rk V r.st.W ∧ (∀ j : Fin N, Spec.Orthonormal (dims j) (rk j) (mats r.st.W j)) ∧
      (IsCore dims rk V r.st.W r.st.core ∨ r.grad = o.tol.toReal * norm2 V)
  | .nothing => o.pp = 2
  | _ => False

/-- **C57 (`-model Tucker`).** As `C57_cp`; the ranks are `-rank` (for the data sets the built-in ones) and the SVD satisfies its
contract.  For `-pp 1` moreover `tol * ‖V‖ < 10`. -/
theorem C57_tucker {atof : CStr → F64} {argv : List CStr} (ho : testOpts atof argv = .ok o) (hf : o.Finite) (hs : 1 ≤ o.size)
    (hr : o.resprint ≠ 0) (hin : InputOk E o) (hd : MainDims o dims) (h4 : 4 ≤ N) (h5 : N ≠ 5) (h9 : N ≤ 9)
    (hT : o.model.head? = some 'T') (hk : SvdShape E.kern) (hl : SvdLeading E.kern)
    (ht : o.pp = 1 → ∀ V, mainTensor E o = .ok V → o.tol.toReal * norm2 V < 10)
    (hclk : o.pp = 1 → ∀ t, E.clock t ≤ o.timelimit.toReal) :
    ∃ V C0 F0, ∃ rk : Fin N → ℕ, mainTensor E o = .ok V ∧ InputSpec E o V ∧ V.lens = List.ofFn dims ∧ MainRanks o rk ∧
      hosvd E.kern V (List.ofFn rk) = .ok (C0, F0) ∧ ∃ fuel0 : ℕ, ∀ fuel ≥ fuel0,
        ∃ out, testMain E fuel o = .ok (V, out) ∧ TuckOutcome o dims rk V F0 out := by
  obtain ⟨t1, -, t3, t4, t5, -⟩ := C44_test_values ho
  have hpp : 0 ≤ o.pp ∧ o.pp ≤ 2 := optValid (v := fun x => 0 ≤ x ∧ x ≤ 2) t1 (by norm_num)
  have hmi : 0 ≤ o.maxiter := optValid t3 (by norm_num)
  have hR : 0 ≤ o.R ∧ o.R ≤ o.size := optValid (v := fun x => 0 ≤ x ∧ x ≤ o.size) t5 (by omega)
  obtain ⟨V, v1, v2⟩ := C57_tensor hin
  have hV := input_lens v2 hd hin
  obtain ⟨rk, k1, k2⟩ := mainRanks_le hd hs hR.2 hin
  obtain ⟨C0, F0, f1, f2, f3, f4⟩ := hosvd_start (by omega) (by omega) hV k2 hk hl
  refine ⟨V, C0, F0, rk, v1, v2, hV, k1, f1, ?_⟩
  have hT' : o.model[0]? = some 'T' := by rw [← List.head?_eq_getElem?]; exact hT
  have hTC : ¬ o.model[0]? = some 'C' := by rw [hT']; simp
  have h012 : o.pp = 0 ∨ o.pp = 1 ∨ o.pp = 2 := by omega
  rcases h012 with h | h | h
  · refine ⟨(o.maxiter + 1).toNat + 1, fun fuel hfu => ?_⟩
    obtain ⟨r, Ws, r1, r2, r3, r4, r5, r6, r7⟩ := C48_tucker_dt h4 h5 (by omega) k2 f2 f3.1 hk
      (a := ⟨o.tol.toReal * norm2 V, o.timelimit.toReal, o.maxiter, o.resprint⟩) hmi hr E.clock (fuel := fuel) (by simp only; omega)
    obtain ⟨Ws', Cs, w1, w2, w3⟩ := C38_dt_monotone h4 h5 (by omega) k2 f2 hk hl C0
    have hW : ∀ n, Ws n = Ws' n := by
      intro n
      induction n with
      | zero => rw [r2, w1]
      | succ n ih =>
        obtain ⟨C, c1⟩ := r3 n
        have a := (w3 n).1
        have b := (w3 (n + 1)).1
        rw [iterM_succ_right, a] at b
        change tuckSweepDT E.kern V (List.ofFn rk) (Ws' n) = _ at b
        rw [ih, b] at c1
        exact (Prod.mk.inj (Except.ok.inj c1)).1.symm
    have hWs : Ws = Ws' := funext hW
    subst hWs
    obtain ⟨m1, m2, m3⟩ := w2
    have hmono : ∀ n m, n ≤ m →
        Spec.tuckErrSq dims rk (arr V N) (mats (Ws m)) ≤ Spec.tuckErrSq dims rk (arr V N) (mats (Ws n)) := by
      intro n m hnm
      induction m, hnm using Nat.le_induction with
      | base => exact le_rfl
      | succ m _ ih => exact (m3 m (.inr (by rw [w1]; exact f4))).2.trans ih
    refine ⟨.tuckDT r, testMain_of v1 ?_, h, r5.bound, r5.no, by rw [r4]; exact m1 _, ?_, r6, ?_, ?_⟩
    · rw [mainDrive_fin hf.tol hf.timelimit]
      unfold mainDriveR
      simp only [hV, List.length_ofFn, if_neg hTC, if_pos hT', if_pos h, bind, Except.bind]
      rw [mainRanks_eq.1 k1, f1]
      simp only
      rw [r1]
      rfl
    · rw [r4]
      rcases Nat.eq_zero_or_pos r.iter with h0 | h0
      · rw [h0, w1]; exact f4
      · exact m2 _ h0
    · rw [r4, ← w1]
      exact hmono 0 _ (Nat.zero_le _)
    · intro row hrow
      obtain ⟨n, ⟨n1, -⟩, -, rfl⟩ := (r7 row).1 hrow
      exact ⟨Ws n, m1 n, rfl, by rw [r4]; exact hmono n _ n1⟩
  · obtain ⟨m, hm⟩ := tol_decay o.ppResTol.toReal
    refine ⟨(o.maxiter + 3).toNat + m, fun fuel hfu => ?_⟩
    obtain ⟨r, ret, r1, r2⟩ := C54_terminates h4 h5 h9 k2 f2 f3.1 hk hl o.ppResTol.toReal m hm
      ⟨false, o.tol.toReal * norm2 V, o.timelimit.toReal, o.maxiter, o.resprint, false⟩ hmi hr (ht h V v1) E.clock (hclk h) fuel
      (by simp only; omega)
    refine ⟨.tuckPP r ret, testMain_of v1 ?_, h, r2.stop, r2.bound, r2.value, r2.conv, r2.shape, r2.ortho f4, r2.core.imp id And.left⟩
    rw [mainDrive_fin hf.tol hf.timelimit]
    unfold mainDriveR
    simp only [hV, List.length_ofFn, if_neg hTC, if_pos hT', h, bind, Except.bind]
    rw [mainRanks_eq.1 k1, f1]
    simp only
    rw [if_neg (by norm_num), if_pos trivial, r1]
    rfl
  · refine ⟨0, fun fuel _ => ⟨.nothing, testMain_of v1 ?_, h⟩⟩
    rw [mainDrive_fin hf.tol hf.timelimit]
    unfold mainDriveR
    simp only [hV, List.length_ofFn, if_neg hTC, if_pos hT', h, bind, Except.bind]
    rw [mainRanks_eq.1 k1, f1]
    simp only
    rw [if_neg (by norm_num), if_neg (by norm_num)]
    rfl

end

end Properties
