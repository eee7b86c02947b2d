import Verif.Proofs.HooiSweep
import Verif.Properties.Tucker

/-! # C37, C38: sign alignment and monotone HOOI -/

namespace Properties

open Model Finset Function

variable {N : ℕ} {dims rk : Fin N → ℕ} {V : Tensor ℝ} {W : List (Tensor ℝ)}

/-! ## C37 -/

/-- **C37.** The sign fix applied to a new factor `W` with reference `Wref` (any two matrices of equal shape) runs without
fault; every column is multiplied by `1` or by `-1`, and afterwards its inner product with the column of the reference is
nonnegative. -/
theorem C37_sign {W Wref : Tensor ℝ} {n c : ℕ} (hW : W.lens = [n, c]) (hR : Wref.lens = [n, c]) :
    ∃ W', signAlign W Wref = .ok W' ∧ W'.lens = [n, c] ∧
      ∀ a < c, ((∀ x < n, mat W' x a = mat W x a) ∨ (∀ x < n, mat W' x a = -mat W x a)) ∧
        0 ≤ ∑ x ∈ range n, mat W' x a * mat Wref x a := by
  obtain ⟨W', h1, _, h3, h4⟩ := signAlign_ok hW hR
  refine ⟨W', h1, h3, fun a ha => ⟨?_, ?_⟩⟩
  · by_cases hs : 0 < ∑ x ∈ range n, mat W x a * mat Wref x a
    · refine .inl fun x hx => ?_
      rw [h4 x hx a ha, colSign, if_pos hs, mul_one]
    · refine .inr fun x hx => ?_
      rw [h4 x hx a ha, colSign, if_neg hs, mul_neg_one]
  · have e : ∑ x ∈ range n, mat W' x a * mat Wref x a =
        colSign n (mat W) (mat Wref) a * ∑ x ∈ range n, mat W x a * mat Wref x a := by
      rw [mul_sum]
      refine sum_congr rfl fun x hx => ?_
      rw [h4 x (mem_range.1 hx) a ha]; ring
    rw [e]
    unfold colSign
    split_ifs with h <;> linarith

/-- **C37.** A column is negated exactly when its inner product with the reference column is not positive; in particular a
column orthogonal to the reference (for example a zero reference, as in the first sweep of every exact phase) is negated. -/
theorem C37_sign_iff {W Wref : Tensor ℝ} {n c : ℕ} (hW : W.lens = [n, c]) (hR : Wref.lens = [n, c]) :
    ∃ W', signAlign W Wref = .ok W' ∧ ∀ a < c,
      (0 < ∑ x ∈ range n, mat W x a * mat Wref x a → ∀ x < n, mat W' x a = mat W x a) ∧
      (∑ x ∈ range n, mat W x a * mat Wref x a ≤ 0 → ∀ x < n, mat W' x a = -mat W x a) := by
  obtain ⟨W', h1, _, h3, h4⟩ := signAlign_ok hW hR
  refine ⟨W', h1, fun a ha => ⟨fun hs x hx => ?_, fun hs x hx => ?_⟩⟩
  · rw [h4 x hx a ha, colSign, if_pos hs, mul_one]
  · rw [h4 x hx a ha, colSign, if_neg (not_lt.2 hs), mul_neg_one]

/-- **C37.** The other sign normalisation, guarded by `norm_U < 0`, never changes a factor: whatever `Y` and the SVD, the new
factor is the matrix of left singular vectors as returned by the SVD. -/
theorem C37_dead_branch (k : Kern ℝ) (Y : Tensor ℝ) (i r : ℕ) :
    factorOf k Y i r = (do let M ← unroll Y i; pure (k.svd M r).U) := factorOf_eq k Y i r

/-- **C37.** Aligning changes neither the orthonormality of the columns nor the norm of the core nor the Tucker reconstruction
error: for every mode, replacing the factor by one whose columns are multiplied by signs. -/
theorem C37_harmless {Wi Wref : Tensor ℝ} (i : Fin N) (hW : Wi.lens = [dims i, rk i]) (hR : Wref.lens = [dims i, rk i])
    (Vv : (Fin N → ℕ) → ℝ) (F : Fin N → ℕ → ℕ → ℝ) :
    ∃ W', signAlign Wi Wref = .ok W' ∧
      (Spec.Orthonormal (dims i) (rk i) (mat Wi) → Spec.Orthonormal (dims i) (rk i) (mat W')) ∧
      Spec.coreNormSq dims rk Vv (update F i (mat W')) = Spec.coreNormSq dims rk Vv (update F i (mat Wi)) := by
  obtain ⟨W', h1, _, h3, h4⟩ := signAlign_ok hW hR
  refine ⟨W', h1, orthonormal_sign (fun a _ => colSign_sq _ _ _ a) h4, ?_⟩
  unfold Spec.coreNormSq
  rw [core_norm_eq _ i, core_norm_eq _ i]
  have e : ∀ B, Spec.multiTTM dims Vv (update F i B) {i} = Spec.multiTTM dims Vv F {i} := fun B =>
    multiTTM_single_congr fun j hj => by rw [update_of_ne hj]
  rw [e, e, update_self, update_self]
  exact trace_sign (fun a _ => colSign_sq _ _ _ a) h4

/-- **C37.** In a whole sweep of the exact phase of the Tucker PP driver, every column of every new factor has a nonnegative
inner product with the corresponding column of the factor of the previous sweep. -/
theorem C37_sweep (h4 : 4 ≤ N) (h5 : N ≠ 5) (hN : N ≤ 18) (hr : ∀ j, rk j ≤ dims j) {Wp : List (Tensor ℝ)}
    (hP : TuckShaped dims rk V Wp) (hS : TuckShaped dims rk V W) {k : Kern ℝ} (hk : SvdShape k) (hl : SvdLeading k) :
    ∃ W' C, tuckSweepDTsub k V (List.ofFn rk) Wp W = .ok (W', C) ∧
      ∀ i : Fin N, ∀ a < rk i, 0 ≤ ∑ x ∈ range (dims i), mats W' i x a * mats Wp i x a := by
  obtain ⟨W', C, h1, _, _, _, _, h6⟩ := tuckSweepDTsub_ok h4 h5 hN hr hP hS hk hl
  exact ⟨W', C, h1, h6⟩

/-! ## C38 -/

/-- **C38.** One mode update of `alsTucker` (orders 2..10, exact leading singular vectors): the other factors are untouched,
the new factor has orthonormal columns, and no other matrix with orthonormal columns in its place gives a larger core. -/
theorem C38_update_optimal (h2 : 2 ≤ N) (hN : N ≤ 10) (hr : ∀ j, rk j ≤ dims j) (hS : TuckShaped dims rk V W)
    {k : Kern ℝ} (hl : SvdLeading k) (i : Fin N) :
    ∃ W', tuckUpdate k V (List.ofFn rk) W i.1 = .ok W' ∧ TuckShaped dims rk V W' ∧
      (∀ j, j ≠ i → mats (N := N) W' j = mats W j) ∧ Spec.Orthonormal (dims i) (rk i) (mats W' i) ∧
      ∀ B, Spec.Orthonormal (dims i) (rk i) B →
        Spec.coreNormSq dims rk (arr V N) (update (mats W) i B) ≤ Spec.coreNormSq dims rk (arr V N) (mats W') := by
  obtain ⟨W', w1, w2⟩ := tuckUpdate_ok h2 hN hS k i
  have hb := (w2.toS hl hr).best hl hr hS.count
  refine ⟨W', w1, hb.shaped hS, ?_, hb.2.1, hb.2.2⟩
  intro j hj
  obtain ⟨⟨U, _, rfl⟩, _⟩ := hb
  exact mats_set_ne U hj

/-- What a sequence of sweeps `Ws 0, Ws 1, …` guarantees: after the first sweep all factors have orthonormal columns, the norm
of the core never decreases and the error never increases from sweep to sweep; also in the first sweep if the starting factors
are orthonormal. -/
def Monotone (dims rk : Fin N → ℕ) (V : Tensor ℝ) (Ws : ℕ → List (Tensor ℝ)) : Prop :=
  (∀ n, TuckShaped dims rk V (Ws n)) ∧
  (∀ n, 1 ≤ n → ∀ j : Fin N, Spec.Orthonormal (dims j) (rk j) (mats (Ws n) j)) ∧
  (∀ n, (1 ≤ n ∨ ∀ j : Fin N, Spec.Orthonormal (dims j) (rk j) (mats (Ws 0) j)) →
    Spec.coreNormSq dims rk (arr V N) (mats (Ws n)) ≤ Spec.coreNormSq dims rk (arr V N) (mats (Ws (n + 1))) ∧
    Spec.tuckErrSq dims rk (arr V N) (mats (Ws (n + 1))) ≤ Spec.tuckErrSq dims rk (arr V N) (mats (Ws n)))

/-- For orthonormal factors the squared error is the squared norm of the tensor minus the squared norm of the core. -/
theorem C38_error_identity {Vv : (Fin N → ℕ) → ℝ} {F : Fin N → ℕ → ℕ → ℝ}
    (hW : ∀ j, Spec.Orthonormal (dims j) (rk j) (F j)) :
    Spec.tuckErrSq dims rk Vv F = Spec.sumSq dims Vv - Spec.coreNormSq dims rk Vv F := error_identity hW

theorem monotone_of_best {Ws : ℕ → List (Tensor ℝ)} (h0 : TuckShaped dims rk V (Ws 0))
    (h : ∀ n, TuckShaped dims rk V (Ws n) → BestRun dims rk V (Ws n) (Ws (n + 1)) N) : Monotone dims rk V Ws := by
  have hs : ∀ n, TuckShaped dims rk V (Ws n) := by
    intro n
    induction n with
    | zero => exact h0
    | succ n ih => exact ((h n ih).spec le_rfl ih).1
  have ho : ∀ n, 1 ≤ n → ∀ j : Fin N, Spec.Orthonormal (dims j) (rk j) (mats (Ws n) j) := by
    intro n hn j
    obtain ⟨m, rfl⟩ : ∃ m, n = m + 1 := ⟨n - 1, by omega⟩
    exact ((h m (hs m)).spec le_rfl (hs m)).2.1 j j.2
  refine ⟨hs, ho, fun n hn => ?_⟩
  have hn' : AllOrtho dims rk (Ws n) := by
    rcases Nat.eq_zero_or_pos n with rfl | hp
    · rcases hn with hn | hn
      · omega
      · exact hn
    · exact ho n hp
  obtain ⟨a, b⟩ := ((h n (hs n)).spec le_rfl (hs n)).2.2 hn'
  refine ⟨b, ?_⟩
  rw [C38_error_identity a, C38_error_identity hn']
  exact sub_le_sub_left b _

/-- A total step, iterated. -/
theorem iterM_seq {σ : Type} {step : σ → Except Fault σ} {P : σ → Prop} {R : σ → σ → Prop}
    (h : ∀ s, P s → ∃ s', step s = .ok s' ∧ P s' ∧ R s s') {s : σ} (hs : P s) :
    ∃ f : ℕ → σ, f 0 = s ∧ (∀ n, iterM step n s = .ok (f n)) ∧ ∀ n, P (f n) ∧ R (f n) (f (n + 1)) := by
  choose! g g1 g2 g3 using h
  have hP : ∀ n, P (g^[n] s) := by
    intro n
    induction n with
    | zero => exact hs
    | succ n ih => rw [iterate_succ_apply']; exact g2 _ ih
  refine ⟨fun n => g^[n] s, rfl, ?_, fun n => ⟨hP n, ?_⟩⟩
  · intro n
    induction n with
    | zero => rfl
    | succ n ih =>
      rw [iterM_succ_right, ih]
      beta_reduce
      rw [iterate_succ_apply']
      exact g1 _ (hP n)
  · beta_reduce
    rw [iterate_succ_apply']
    exact g3 _ (hP n)

/-- **C38.** Sweeps of `alsTucker` for orders 2..10: any number of sweeps runs without fault, the core norm never decreases and
the reconstruction error never increases. -/
theorem C38_direct_monotone (h2 : 2 ≤ N) (hN : N ≤ 10) (hr : ∀ j, rk j ≤ dims j) (hS : TuckShaped dims rk V W)
    {k : Kern ℝ} (hk : SvdShape k) (hl : SvdLeading k) :
    ∃ Ws : ℕ → List (Tensor ℝ), Ws 0 = W ∧ (∀ n, iterM (tuckSweep k V (List.ofFn rk)) n W = .ok (Ws n)) ∧
      Monotone dims rk V Ws := by
  obtain ⟨Ws, w1, w2, w3⟩ := iterM_seq (step := tuckSweep k V (List.ofFn rk)) (P := TuckShaped dims rk V)
    (R := fun a b => BestRun dims rk V a b N) (by
      intro W hS
      obtain ⟨W', a, b, c⟩ := tuckSweep_ok h2 hN hr hS hk
      exact ⟨W', a, b, c.best hl hr le_rfl hS⟩) hS
  exact ⟨Ws, w1, w2, monotone_of_best (w3 0).1 fun n _ => (w3 n).2⟩

/-- **C38.** Sweeps of `alsTucker_DT` for orders 4, 6..18, with the core it stores. -/
theorem C38_dt_monotone (h4 : 4 ≤ N) (h5 : N ≠ 5) (hN : N ≤ 18) (hr : ∀ j, rk j ≤ dims j) (hS : TuckShaped dims rk V W)
    {k : Kern ℝ} (hk : SvdShape k) (hl : SvdLeading k) (C0 : Tensor ℝ) :
    ∃ (Ws : ℕ → List (Tensor ℝ)) (Cs : ℕ → Tensor ℝ), Ws 0 = W ∧ Monotone dims rk V Ws ∧
      ∀ n, iterM (fun s : List (Tensor ℝ) × Tensor ℝ => tuckSweepDT k V (List.ofFn rk) s.1) n (W, C0) = .ok (Ws n, Cs n) ∧
        (1 ≤ n → (norm2 (Cs n)) ^ 2 = Spec.coreNormSq dims rk (arr V N) (mats (Ws n))) := by
  obtain ⟨f, w1, w2, w3⟩ := iterM_seq (s := (W, C0))
    (step := fun s : List (Tensor ℝ) × Tensor ℝ => tuckSweepDT k V (List.ofFn rk) s.1)
    (P := fun s => TuckShaped dims rk V s.1) (R := fun a b => BestRun dims rk V a.1 b.1 N ∧ TValid dims rk (arr V N) (mats b.1) ∅ b.2) (by
      intro s hS
      obtain ⟨W', C, a, b, c, _, e⟩ := tuckSweepDT_ok h4 h5 hN hr hS hk
      exact ⟨(W', C), a, b, c.best hl hr le_rfl hS, e⟩) hS
  refine ⟨fun n => (f n).1, fun n => (f n).2, by simp [w1], monotone_of_best (w3 0).1 fun n _ => (w3 n).2.1, ?_⟩
  intro n
  refine ⟨w2 n, fun hn => ?_⟩
  obtain ⟨m, rfl⟩ : ∃ m, n = m + 1 := ⟨n - 1, by omega⟩
  obtain ⟨e1, e2⟩ := (w3 m).2.2
  have e : klens dims rk ∅ = rk := by funext j; simp [klens]
  rw [e] at e1 e2
  beta_reduce
  rw [norm2, Real.sq_sqrt (by
    rw [sqNorm_eq e1]; exact sum_nonneg fun _ _ => sq_nonneg _), sqNorm_eq e1]
  exact sum_congr rfl fun z hz => by rw [e2 z (Spec.mem_Box.1 hz)]

/-- **C38.** Sweeps of the exact phase of the Tucker PP driver (`alsTucker_DT_sub`; state: `W_prev` and `W`), which align signs
against the factors of the previous sweep: the same guarantees, and consecutive factors have columns with nonnegative inner
products. -/
theorem C38_dtsub_monotone (h4 : 4 ≤ N) (h5 : N ≠ 5) (hN : N ≤ 18) (hr : ∀ j, rk j ≤ dims j) {Wp : List (Tensor ℝ)}
    (hP : TuckShaped dims rk V Wp) (hS : TuckShaped dims rk V W)
    {k : Kern ℝ} (hk : SvdShape k) (hl : SvdLeading k) :
    ∃ (Ws : ℕ → List (Tensor ℝ)) (Ps : ℕ → List (Tensor ℝ)), Ws 0 = W ∧ Monotone dims rk V Ws ∧
      (∀ n, iterM (fun s : List (Tensor ℝ) × List (Tensor ℝ) => do
        let r ← tuckSweepDTsub k V (List.ofFn rk) s.1 s.2
        pure (r.1, r.1)) n (Wp, W) = .ok (Ps n, Ws n)) ∧
      ∀ n, 1 ≤ n → ∀ i : Fin N, ∀ a < rk i, 0 ≤ ∑ x ∈ range (dims i), mats (Ws (n + 1)) i x a * mats (Ws n) i x a := by
  obtain ⟨f, w1, w2, w3⟩ := iterM_seq (s := (Wp, W))
    (step := fun s : List (Tensor ℝ) × List (Tensor ℝ) => do
        let r ← tuckSweepDTsub k V (List.ofFn rk) s.1 s.2
        pure (r.1, r.1))
    (P := fun s => TuckShaped dims rk V s.1 ∧ TuckShaped dims rk V s.2)
    (R := fun a b => BestRun dims rk V a.2 b.2 N ∧ b.1 = b.2 ∧
      ∀ i : Fin N, ∀ c < rk i, 0 ≤ ∑ x ∈ range (dims i), mats b.2 i x c * mats a.1 i x c) (by
      rintro ⟨p, w⟩ ⟨hp, hw⟩
      obtain ⟨W', C, a, b, c, _, _, e⟩ := tuckSweepDTsub_ok h4 h5 hN hr hp hw hk hl
      refine ⟨(W', W'), ?_, ⟨b, b⟩, c, rfl, e⟩
      simp only [bind, Except.bind, pure, Except.pure]
      rw [a]) ⟨hP, hS⟩
  refine ⟨fun n => (f n).2, fun n => (f n).1, by simp [w1], monotone_of_best (w3 0).1.2 fun n _ => (w3 n).2.1, w2, ?_⟩
  intro n hn i a ha
  obtain ⟨m, rfl⟩ : ∃ m, n = m + 1 := ⟨n - 1, by omega⟩
  have := (w3 (m + 1)).2.2.2 i a ha
  rwa [(w3 m).2.2.1] at this

/-- **C38.** What the drivers print (orders 1..10): the core is recomputed from the input and the current factors, `diffnorm`
is the absolute difference of its norm and the norm of `core_prev`, and `diffV` is the norm of the difference between the input
and its reconstruction from that core and the factors. -/
theorem C38_check (h1 : 1 ≤ N) (hN : N ≤ 10) (hS : TuckShaped dims rk V W) (core corePrev : Tensor ℝ) :
    ∃ C, tuckCheck V core corePrev W = .ok (C,
        |Real.sqrt (Spec.coreNormSq dims rk (arr V N) (mats W)) - norm2 corePrev|,
        Real.sqrt (Spec.tuckErrSq dims rk (arr V N) (mats W))) ∧
      C.lens = List.ofFn rk ∧
      ∀ z : Fin N → ℕ, (∀ j, z j < rk j) → arr C N z = Spec.multiTTM dims (arr V N) (mats W) ∅ z := by
  have hlen : V.lens.length = N := by rw [hS.lensV]; simp
  obtain ⟨C, c1, c2, c3⟩ := C33_ttmc_all h1 hN hS core
  have ht : ∀ j : Fin N, ∃ T : Tensor ℝ, (do let F ← rd W (j.1 : ℤ); transposeT F) = .ok T ∧ T.lens = [rk j, dims j] ∧
      ∀ x < dims j, ∀ r < rk j, mat T r x = mats W j x r := by
    intro j
    obtain ⟨M, a, _, b, c⟩ := tmats_get hS j
    obtain ⟨T, t1, _, t3, t4⟩ := transposeT_ok b
    refine ⟨T, ?_, t3, fun x hx r hr => by rw [t4 x hx r hr, c]⟩
    simp only [bind, Except.bind]
    rw [a]
    exact t1
  choose T t1 t2 t3 using ht
  have hT : ((List.range N).mapM fun (i : ℕ) => do transposeT (← rd W i)) = .ok (List.ofFn T) := by
    rw [mapM_ok (g := fun i => if h : i < N then T ⟨i, h⟩ else ⟨[], fun _ => 0⟩)]
    · congr 1
      apply List.ext_getElem
      · simp
      · intro n h1 h2
        simp at h1
        simp [h1]
    · intro i hi
      have hi := List.mem_range.1 hi
      rw [dif_pos hi]
      exact t1 ⟨i, hi⟩
  have hS' : TuckShaped rk dims C (List.ofFn T) := ⟨c2, by simp, by
    intro j M hM
    rw [List.getElem?_ofFn] at hM
    simp only [j.2, dif_pos, Option.some.injEq] at hM
    rw [← hM]
    exact t2 j⟩
  have hmT : ∀ j : Fin N, mats (N := N) (List.ofFn T) j = mat (T j) := by
    intro j
    funext x r
    simp [mats]
  obtain ⟨D, d1, d2, d3⟩ := C33_ttmc_all h1 hN hS' ⟨V.lens, fun _ => 0⟩
  have hD : ∀ idx : Fin N → ℕ, (∀ j, idx j < dims j) →
      arr D N idx = Spec.tuckRecon rk (Spec.multiTTM dims (arr V N) (mats W) ∅) (mats W) idx := by
    intro idx hidx
    rw [d3 idx hidx]
    unfold Spec.tuckRecon Spec.multiTTM
    simp only [notMem_empty, IsEmpty.forall_iff, implies_true, filter_true, compl_empty]
    refine sum_congr rfl fun z hz => ?_
    have hz := Spec.mem_Box.1 hz
    rw [c3 z hz]
    congr 1
    · unfold Spec.multiTTM
      simp
    · refine prod_congr rfl fun j _ => ?_
      rw [hmT, t3 j _ (hidx j) _ (hz j)]
  obtain ⟨E, e1, _, e3, e4⟩ := zipT_ok (fun a b : ℝ => a - b) (A := D) (B := V) (by rw [d2, hS.lensV])
  have hE : E.lens = List.ofFn dims := by rw [e3, d2]
  have n1 : norm2 C = Real.sqrt (Spec.coreNormSq dims rk (arr V N) (mats W)) := by
    rw [norm2, sqNorm_eq c2]
    congr 1
    exact sum_congr rfl fun z hz => by rw [c3 z (Spec.mem_Box.1 hz)]
  have n2 : norm2 E = Real.sqrt (Spec.tuckErrSq dims rk (arr V N) (mats W)) := by
    rw [norm2, sqNorm_eq hE]
    congr 1
    refine sum_congr rfl fun idx hidx => ?_
    have hidx := Spec.mem_Box.1 hidx
    have : arr E N idx = arr D N idx - arr V N idx := e4 _ (by
      rw [d2]
      exact fits_ofFn.2 hidx)
    rw [this, hD idx hidx]
    ring
  refine ⟨C, ?_, c2, c3⟩
  unfold tuckCheck
  simp only [bind, Except.bind, pure, Except.pure]
  rw [c1]
  simp only
  rw [hlen]
  simp only [bind, Except.bind] at hT
  rw [hT]
  simp only
  rw [d1]
  simp only
  rw [e1]
  simp only
  rw [n1, n2]

/-! ## The hypotheses are met by concrete problems -/

section Examples

/-- An order-4 Tucker problem with four different lengths and ranks 1, 2, 1, 3. -/
noncomputable def exTuckV : Tensor ℝ := ⟨[2, 3, 1, 4], fun idx => (idx.sum : ℝ) + 1⟩

noncomputable def exTuckW : List (Tensor ℝ) :=
  [⟨[2, 1], fun _ => 1⟩, ⟨[3, 2], fun _ => 2⟩, ⟨[1, 1], fun _ => 1⟩, ⟨[4, 3], fun _ => 3⟩]

theorem exTuckShaped : TuckShaped (N := 4) ![2, 3, 1, 4] ![1, 2, 1, 3] exTuckV exTuckW where
  lensV := rfl
  count := rfl
  lensW := by
    intro j M h
    fin_cases j <;> (simp [exTuckW] at h; subst h; rfl)

theorem exTuckRank : ∀ j : Fin 4, (![1, 2, 1, 3] : Fin 4 → ℕ) j ≤ (![2, 3, 1, 4] : Fin 4 → ℕ) j := by decide

example (Y0 : Tensor ℝ) := C33_ttmc (by norm_num) (by norm_num) exTuckShaped 2 Y0
example (Y0 : Tensor ℝ) := C33_ttmc_all (by norm_num) (by norm_num) exTuckShaped Y0
example (Y0 : Tensor ℝ) := C34_core_is_ttmc (by norm_num) (by norm_num) exTuckShaped Y0
example := C34_core_exact (by norm_num) (by norm_num) exTuckShaped
example : ∃ k : Kern ℝ, ∃ C F, hosvd k exTuckV [1, 2, 1, 3] = .ok (C, F) := by
  obtain ⟨k, _, hk⟩ := exists_svdLeading
  obtain ⟨C, F, h, _⟩ := C34_hosvd (by norm_num) (by norm_num) exTuckShaped.lensV exTuckRank hk
  exact ⟨k, C, F, h⟩
example := C35_tree_exact (by norm_num) (by norm_num) (by norm_num) exTuckShaped 3
example : ∃ k : Kern ℝ, ∃ W' C, tuckSweepDT k exTuckV [1, 2, 1, 3] exTuckW = .ok (W', C) := by
  obtain ⟨k, _, hk⟩ := exists_svdLeading
  obtain ⟨W', C, h, _⟩ := C35_sweep_exact (by norm_num) (by norm_num) (by norm_num) exTuckRank exTuckShaped hk
  exact ⟨k, W', C, h⟩
example := C37_sign (W := ⟨[2, 2], fun _ => 1⟩) (Wref := ⟨[2, 2], fun _ => -1⟩) rfl rfl
example : ∃ k : Kern ℝ, SvdLeading k ∧ ∃ Ws : ℕ → List (Tensor ℝ), Ws 0 = exTuckW ∧
    (∀ n, iterM (tuckSweep k exTuckV [1, 2, 1, 3]) n exTuckW = .ok (Ws n)) ∧ Monotone ![2, 3, 1, 4] ![1, 2, 1, 3] exTuckV Ws := by
  obtain ⟨k, hl, hk⟩ := exists_svdLeading
  exact ⟨k, hl, C38_direct_monotone (by norm_num) (by norm_num) exTuckRank exTuckShaped hk hl⟩
example : ∃ k : Kern ℝ, ∃ W' C, tuckSweepDTsub k exTuckV [1, 2, 1, 3] exTuckW exTuckW = .ok (W', C) := by
  obtain ⟨k, hl, hk⟩ := exists_svdLeading
  obtain ⟨W', C, h, _⟩ := C37_sweep (by norm_num) (by norm_num) (by norm_num) exTuckRank exTuckShaped exTuckShaped hk hl
  exact ⟨k, W', C, h⟩
example (c p : Tensor ℝ) := C38_check (by norm_num) (by norm_num) exTuckShaped c p
/-- Order 5 with a rank below the length, order 3, and order 11 (the violations). -/
example := C35_order5_abort (K := ℤ) (dims := fun _ => 2) (rk := fun _ => 1) (V := ⟨[2, 2, 2, 2, 2], fun _ => 1⟩)
  (W := List.replicate 5 ⟨[2, 1], fun _ => 1⟩)
  ⟨by simp [List.ofFn_succ], by simp, by
    intro j M h
    have := List.mem_of_getElem? h
    simp at this; subst this; rfl⟩ (.inl (by norm_num))
example (Y0 : Tensor ℤ) := C33_label_collision (K := ℤ) (N := 11) (dims := fun _ => 2) (rk := fun _ => 1)
  (V := ⟨List.replicate 11 2, fun _ => 1⟩) (W := List.replicate 11 ⟨[2, 1], fun _ => 1⟩) (by norm_num) (by norm_num)
  ⟨by simp [List.ofFn_succ, List.replicate], by simp, by
    intro j M h
    have := List.mem_of_getElem? h
    simp at this; subst this; rfl⟩ (-1) Y0 (by norm_num)

end Examples

end Properties
