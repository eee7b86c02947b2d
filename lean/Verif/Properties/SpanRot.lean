import Verif.Proofs.SpanRot
import Verif.Properties.Span

/-! # C77: the Tucker drivers commute with orthogonal changes of coordinates and with scaling -/

namespace Properties

open Model Finset Function

variable {N : ℕ} {dims rk : Fin N → ℕ} {V V' : Tensor ℝ} {W W' : List (Tensor ℝ)} {Q : Fin N → ℕ → ℕ → ℝ} {c : ℝ}

/-- The result `F'` for `V'` is the result `F` for `V` in the coordinates given by the orthogonal matrices `Q_j`, scaled by `c`. -/
structure RotResult (dims rk : Fin N → ℕ) (Q : Fin N → ℕ → ℕ → ℝ) (c : ℝ) (V V' : Tensor ℝ) (F F' : List (Tensor ℝ)) : Prop where
  /-- the factors span the images under `Q_j` of the subspaces spanned before -/
  spans : ∀ j, ∀ x < dims j, ∀ y < dims j, Spec.outer (rk j) (mats F' j) x y =
    Spec.rotProj (dims j) (Q j) (Spec.outer (rk j) (mats F j)) x y
  /-- the approximation of `V'` is the approximation of `V` in the new coordinates -/
  recon : ∀ idx : Fin N → ℕ, (∀ j, idx j < dims j) →
    Spec.tuckRecon rk (Spec.multiTTM dims (arr V' N) (mats F') ∅) (mats F') idx =
      Spec.rotTensor dims Q c (Spec.tuckRecon rk (Spec.multiTTM dims (arr V N) (mats F) ∅) (mats F)) idx
  core : Spec.coreNormSq dims rk (arr V' N) (mats F') = c ^ 2 * Spec.coreNormSq dims rk (arr V N) (mats F)
  err : Spec.tuckErrSq dims rk (arr V' N) (mats F') = c ^ 2 * Spec.tuckErrSq dims rk (arr V N) (mats F)

/-- `Q` does not change sums of squares. -/
theorem rot_sumSq (hQ : ∀ j, Spec.Orthonormal (dims j) (dims j) (Q j)) (c : ℝ) (A : (Fin N → ℕ) → ℝ) :
    ∑ idx ∈ Spec.Box dims, (Spec.rotTensor dims Q c A idx) ^ 2 = c ^ 2 * ∑ idx ∈ Spec.Box dims, A idx ^ 2 := by
  have key : ∀ A : (Fin N → ℕ) → ℝ, Spec.spanNormSq dims A (fun _ x y => if x = y then 1 else 0) = ∑ idx ∈ Spec.Box dims, A idx ^ 2 := by
    intro A
    unfold Spec.spanNormSq
    refine sum_congr rfl fun u hu => ?_
    rw [sum_eq_single u]
    · rw [prod_eq_one fun j _ => if_pos rfl]; ring
    · intro v _ hv
      obtain ⟨j, hj⟩ := ne_iff.1 hv
      rw [prod_eq_zero (mem_univ j) (if_neg (Ne.symm hj)), mul_zero]
    · intro h; exact absurd hu h
  rw [← key, ← key, spanNormSq_rot]
  congr 1
  refine spanNormSq_congr fun j a ha b hb => ?_
  rw [← hQ j a ha b hb]
  unfold Spec.rotProj Spec.gram
  refine sum_congr rfl fun x hx => ?_
  rw [sum_eq_single x]
  · beta_reduce; rw [if_pos rfl]; ring
  · intro y _ hy; beta_reduce; rw [if_neg (Ne.symm hy), mul_zero]
  · intro h; exact absurd hx h

theorem rotTensor_congr {A B : (Fin N → ℕ) → ℝ} (h : ∀ idx : Fin N → ℕ, (∀ j, idx j < dims j) → A idx = B idx) (idx : Fin N → ℕ) :
    Spec.rotTensor dims Q c A idx = Spec.rotTensor dims Q c B idx := by
  unfold Spec.rotTensor
  congr 1
  exact sum_congr rfl fun y hy => by rw [h y (Spec.mem_Box.1 hy)]

theorem spanRecon_tensor {A B : (Fin N → ℕ) → ℝ} (h : ∀ idx : Fin N → ℕ, (∀ j, idx j < dims j) → A idx = B idx)
    (P : Fin N → ℕ → ℕ → ℝ) (idx : Fin N → ℕ) : Spec.spanRecon dims A P idx = Spec.spanRecon dims B P idx :=
  sum_congr rfl fun u hu => by rw [h u (Spec.mem_Box.1 hu)]

theorem spanNormSq_tensor {A B : (Fin N → ℕ) → ℝ} (h : ∀ idx : Fin N → ℕ, (∀ j, idx j < dims j) → A idx = B idx)
    (P : Fin N → ℕ → ℕ → ℝ) : Spec.spanNormSq dims A P = Spec.spanNormSq dims B P :=
  sum_congr rfl fun u hu => sum_congr rfl fun v hv => by rw [h u (Spec.mem_Box.1 hu), h v (Spec.mem_Box.1 hv)]

theorem rotResult_of (hQ : ∀ j, Spec.Orthonormal (dims j) (dims j) (Q j))
    (hV : ∀ idx : Fin N → ℕ, (∀ j, idx j < dims j) → arr V' N idx = Spec.rotTensor dims Q c (arr V N) idx)
    {F F' : List (Tensor ℝ)} {P : Fin N → ℕ → ℕ → ℝ} (h : SpanResult dims rk V F P)
    (h' : SpanResult dims rk V' F' fun j => Spec.rotProj (dims j) (Q j) (P j)) : RotResult dims rk Q c V V' F F' := by
  have hr : ∀ idx : Fin N → ℕ, (∀ j, idx j < dims j) →
      Spec.tuckRecon rk (Spec.multiTTM dims (arr V' N) (mats F') ∅) (mats F') idx =
        Spec.rotTensor dims Q c (Spec.tuckRecon rk (Spec.multiTTM dims (arr V N) (mats F) ∅) (mats F)) idx := by
    intro idx hi
    rw [h'.recon idx hi, spanRecon_tensor hV, spanRecon_rot hQ]
    exact rotTensor_congr (fun y hy => (h.recon y hy).symm) idx
  refine ⟨?_, hr, ?_, ?_⟩
  · intro j x hx y hy
    rw [h'.spans j x hx y hy]
    exact rotProj_congr (fun a ha b hb => (h.spans j a ha b hb).symm) x y
  · rw [h'.core, spanNormSq_tensor hV, spanNormSq_rot' hQ, h.core]
  · unfold Spec.tuckErrSq
    rw [← rot_sumSq hQ]
    refine sum_congr rfl fun idx hi => ?_
    have hi' := Spec.mem_Box.1 hi
    rw [hr idx hi', hV idx hi']
    congr 1
    unfold Spec.rotTensor
    rw [← mul_sub, ← sum_sub_distrib]
    congr 1
    exact sum_congr rfl fun y _ => by ring

/-- The starting factors of the second run. -/
theorem spans_rot {P : Fin N → ℕ → ℕ → ℝ} (h0 : Spec.Spans dims rk (mats W) P)
    (hW : ∀ j, ∀ x < dims j, ∀ a < rk j, mats W' j x a = Spec.rotFactor (dims j) (Q j) (mats W j) x a) :
    Spec.Spans dims rk (mats W') fun j => Spec.rotProj (dims j) (Q j) (P j) := by
  intro j x hx y hy
  have e : Spec.outer (rk j) (mats W' j) x y = Spec.outer (rk j) (Spec.rotFactor (dims j) (Q j) (mats W j)) x y :=
    sum_congr rfl fun a ha => by rw [hW j x hx a (mem_range.1 ha), hW j y hy a (mem_range.1 ha)]
  rw [e, outer_rot]
  exact rotProj_congr (h0 j) x y

theorem sweeps_rot (hr : ∀ j, rk j ≤ dims j) (hQ : ∀ j, Spec.Orthonormal (dims j) (dims j) (Q j)) (hc : c ≠ 0)
    (hV : ∀ idx : Fin N → ℕ, (∀ j, idx j < dims j) → arr V' N idx = Spec.rotTensor dims Q c (arr V N) idx)
    {P P' : Fin N → ℕ → ℕ → ℝ} (h : Spec.SpanSweep dims rk (arr V N) P P') :
    Spec.SpanSweep dims rk (arr V' N) (fun j => Spec.rotProj (dims j) (Q j) (P j)) fun j => Spec.rotProj (dims j) (Q j) (P' j) :=
  spanSweep_congr (fun idx hi => (hV idx hi).symm) (spanSweep_rot hr hQ hc h)

/-- **C77 (`alsTucker`, sweeps).** Orders 2..10.  `V'` is `V` times an orthogonal matrix `Q_j` in every mode and times a number
`c ≠ 0`, the starting factors of the second run are `Q_j W_j`, and the leading eigenvalues met by the first run exceed those left
out.  Then after every number of sweeps the second run has the subspaces, approximation, core norm and error of the first in the
new coordinates, with any two SVDs that return leading singular vectors. -/
theorem C77_direct (h2 : 2 ≤ N) (hN : N ≤ 10) (hr : ∀ j, rk j ≤ dims j) (hS : TuckShaped dims rk V W) (hS' : TuckShaped dims rk V' W')
    (hQ : ∀ j, Spec.Orthonormal (dims j) (dims j) (Q j)) (hc : c ≠ 0)
    (hV : ∀ idx : Fin N → ℕ, (∀ j, idx j < dims j) → arr V' N idx = Spec.rotTensor dims Q c (arr V N) idx)
    (hW : ∀ j, ∀ x < dims j, ∀ a < rk j, mats W' j x a = Spec.rotFactor (dims j) (Q j) (mats W j) x a)
    {k k' : Kern ℝ} (hk : SvdShape k) (hl : SvdLeading k) (hk' : SvdShape k') (hl' : SvdLeading k')
    {P : ℕ → Fin N → ℕ → ℕ → ℝ} (h0 : Spec.Spans dims rk (mats W) (P 0)) {m : ℕ}
    (hP : ∀ n < m, Spec.SpanSweep dims rk (arr V N) (P n) (P (n + 1))) :
    ∃ Ws Ws' : ℕ → List (Tensor ℝ), (∀ n, iterM (tuckSweep k V (List.ofFn rk)) n W = .ok (Ws n)) ∧
      (∀ n, iterM (tuckSweep k' V' (List.ofFn rk)) n W' = .ok (Ws' n)) ∧
      ∀ n ≤ m, RotResult dims rk Q c V V' (Ws n) (Ws' n) := by
  obtain ⟨Ws, a1, a2⟩ := C76_direct h2 hN hr hS hk hl h0 hP
  obtain ⟨Ws', b1, b2⟩ := C76_direct h2 hN hr hS' hk' hl' (P := fun n j => Spec.rotProj (dims j) (Q j) (P n j)) (spans_rot h0 hW) (m := m)
    fun n hn => sweeps_rot hr hQ hc hV (hP n hn)
  exact ⟨Ws, Ws', a1, b1, fun n hn => rotResult_of hQ hV (a2 n hn) (b2 n hn)⟩

/-- **C77 (`alsTucker_DT`, sweeps).** The same with the dimension tree, orders 4, 6..18; the stored cores have norms with ratio `|c|`. -/
theorem C77_dt (h4 : 4 ≤ N) (h5 : N ≠ 5) (hN : N ≤ 18) (hr : ∀ j, rk j ≤ dims j) (hS : TuckShaped dims rk V W)
    (hS' : TuckShaped dims rk V' W') (hQ : ∀ j, Spec.Orthonormal (dims j) (dims j) (Q j)) (hc : c ≠ 0)
    (hV : ∀ idx : Fin N → ℕ, (∀ j, idx j < dims j) → arr V' N idx = Spec.rotTensor dims Q c (arr V N) idx)
    (hW : ∀ j, ∀ x < dims j, ∀ a < rk j, mats W' j x a = Spec.rotFactor (dims j) (Q j) (mats W j) x a)
    {k k' : Kern ℝ} (hk : SvdShape k) (hl : SvdLeading k) (hk' : SvdShape k') (hl' : SvdLeading k') (C0 C0' : Tensor ℝ)
    {P : ℕ → Fin N → ℕ → ℕ → ℝ} (h0 : Spec.Spans dims rk (mats W) (P 0)) {m : ℕ}
    (hP : ∀ n < m, Spec.SpanSweep dims rk (arr V N) (P n) (P (n + 1))) :
    ∃ (Ws Ws' : ℕ → List (Tensor ℝ)) (Cs Cs' : ℕ → Tensor ℝ),
      (∀ n, iterM (fun s : List (Tensor ℝ) × Tensor ℝ => tuckSweepDT k V (List.ofFn rk) s.1) n (W, C0) = .ok (Ws n, Cs n)) ∧
      (∀ n, iterM (fun s : List (Tensor ℝ) × Tensor ℝ => tuckSweepDT k' V' (List.ofFn rk) s.1) n (W', C0') = .ok (Ws' n, Cs' n)) ∧
      ∀ n ≤ m, RotResult dims rk Q c V V' (Ws n) (Ws' n) ∧ (1 ≤ n → norm2 (Cs' n) = |c| * norm2 (Cs n)) := by
  obtain ⟨Ws, Cs, -, a1, a2⟩ := C76_dt h4 h5 hN hr hS hk hl C0 h0 hP
  obtain ⟨Ws', Cs', -, b1, b2⟩ := C76_dt h4 h5 hN hr hS' hk' hl' C0' (P := fun n j => Spec.rotProj (dims j) (Q j) (P n j))
    (spans_rot h0 hW) (m := m) fun n hn => sweeps_rot hr hQ hc hV (hP n hn)
  refine ⟨Ws, Ws', Cs, Cs', a1, b1, fun n hn => ⟨rotResult_of hQ hV (a2 n hn).1 (b2 n hn).1, fun h1 => ?_⟩⟩
  rw [(a2 n hn).2 h1, (b2 n hn).2 h1, spanNormSq_tensor hV, spanNormSq_rot' hQ, Real.sqrt_mul (sq_nonneg c), Real.sqrt_sq_eq_abs]

/-- **C77 (`hosvd`).** The same for `hosvd`, if the leading eigenvalues of the Gram matrices of the unfoldings of `V` exceed the others. -/
theorem C77_hosvd (h1 : 1 ≤ N) (hN : N ≤ 18) (hL : V.lens = List.ofFn dims) (hL' : V'.lens = List.ofFn dims) (hr : ∀ j, rk j ≤ dims j)
    (hQ : ∀ j, Spec.Orthonormal (dims j) (dims j) (Q j)) (hc : c ≠ 0)
    (hV : ∀ idx : Fin N → ℕ, (∀ j, idx j < dims j) → arr V' N idx = Spec.rotTensor dims Q c (arr V N) idx)
    {k k' : Kern ℝ} (hk : SvdShape k) (hl : SvdLeading k) (hk' : SvdShape k') (hl' : SvdLeading k') {P : Fin N → ℕ → ℕ → ℝ}
    (hP : ∀ i, Spec.LeadingProj (dims i) (rk i) (Spec.unfoldGram dims (arr V N) i) (P i)) :
    ∃ C F C' F', hosvd k V (List.ofFn rk) = .ok (C, F) ∧ hosvd k' V' (List.ofFn rk) = .ok (C', F') ∧
      RotResult dims rk Q c V V' F F' ∧ norm2 C' = |c| * norm2 C := by
  have eg : ∀ (A : (Fin N → ℕ) → ℝ) (i : Fin N) (x y : ℕ), y < dims i → Spec.unfoldGram dims A i x y =
      Spec.spanGram dims A (fun _ x y => if x = y then 1 else 0) i x y := by
    intro A i x y hy
    unfold Spec.unfoldGram Spec.spanGram
    refine sum_congr rfl fun z hz => ?_
    have hz' := Spec.mem_Box.1 (mem_filter.1 hz).1
    rw [sum_eq_single (update z i y)]
    · rw [prod_eq_one, mul_one]
      intro j hj
      beta_reduce
      rw [update_of_ne (mem_erase.1 hj).1, if_pos rfl]
    · intro v hv hne
      obtain ⟨j, hj⟩ := ne_iff.1 hne
      have hji : j ≠ i := by
        rintro rfl
        rw [update_self] at hj
        exact hj (mem_filter.1 hv).2
      rw [update_of_ne hji] at hj
      have z0 : (if z j = v j then (1 : ℝ) else 0) = 0 := if_neg (Ne.symm hj)
      rw [prod_eq_zero (mem_erase.2 ⟨hji, mem_univ j⟩) z0, mul_zero]
    · intro h
      refine absurd (mem_filter.2 ⟨Spec.mem_Box.2 fun j => ?_, update_self ..⟩) h
      by_cases hji : j = i
      · subst hji; rw [update_self]; exact hy
      · rw [update_of_ne hji]; exact hz' j
  have hP' : ∀ i, Spec.LeadingProj (dims i) (rk i) (Spec.unfoldGram dims (arr V' N) i) (Spec.rotProj (dims i) (Q i) (P i)) := by
    intro i
    refine leading_rot (hr i) hc (hQ i) (hP i) fun x hx y hy => ?_
    rw [eg _ _ _ _ hy]
    have e1 : Spec.spanGram dims (arr V' N) (fun _ x y => if x = y then 1 else 0) i x y =
        Spec.spanGram dims (Spec.rotTensor dims Q c (arr V N)) (fun j => Spec.rotProj (dims j) (Q j) fun x y => if x = y then 1 else 0) i x y := by
      refine sum_congr rfl fun u hu => sum_congr rfl fun v hv => ?_
      have hu' := Spec.mem_Box.1 (mem_filter.1 hu).1
      have hv' := Spec.mem_Box.1 (mem_filter.1 hv).1
      rw [hV u hu', hV v hv']
      congr 1
      refine prod_congr rfl fun j _ => ?_
      beta_reduce
      rw [← orth_rows (hQ j) _ (hu' j) _ (hv' j)]
      unfold Spec.rotProj
      refine sum_congr rfl fun a ha => ?_
      rw [sum_eq_single a]
      · beta_reduce; rw [if_pos rfl, mul_one]
      · intro b _ hb; beta_reduce; rw [if_neg (Ne.symm hb), mul_zero]
      · intro h; exact absurd ha h
    rw [e1, spanGram_rot hQ c _ _ i hx hy]
    congr 1
    exact rotProj_congr (fun a _ b hb => (eg _ _ _ _ hb).symm) x y
  obtain ⟨C, F, a1, a2, a3⟩ := C76_hosvd h1 hN hL hr hk hl hP
  obtain ⟨C', F', b1, b2, b3⟩ := C76_hosvd h1 hN hL' hr hk' hl' hP'
  refine ⟨C, F, C', F', a1, b1, rotResult_of hQ hV a2 b2, ?_⟩
  rw [a3, b3, spanNormSq_tensor hV, spanNormSq_rot' hQ, Real.sqrt_mul (sq_nonneg c), Real.sqrt_sq_eq_abs]

theorem lastNorm_scale {tested : ℕ → Prop} {n0 n0' : ℝ} {f g : ℕ → ℝ} {n : ℕ} {s : ℝ} (h0 : n0' = s * n0) (h : ∀ k < n, g k = s * f k) :
    lastNorm tested n0' g n = s * lastNorm tested n0 f n := by
  induction n with
  | zero => exact h0
  | succ n ih =>
    unfold lastNorm
    rw [h n (by omega), ih fun k hk => h k (by omega)]
    split_ifs <;> rfl

theorem RotResult.coreNorm {F F' : List (Tensor ℝ)} (h : RotResult dims rk Q c V V' F F') :
    coreNorm dims rk V' F' = |c| * coreNorm dims rk V F := by
  unfold Properties.coreNorm
  rw [h.core, Real.sqrt_mul (sq_nonneg c), Real.sqrt_sq_eq_abs]

theorem scaled_test {s a b tol : ℝ} (hs : 0 < s) : |s * a - s * b| < s * tol ↔ |a - b| < tol := by
  rw [← mul_sub, abs_mul, abs_of_pos hs]
  exact mul_lt_mul_iff_right₀ hs

/-- **C77 (`alsTucker`, whole call).** Under the conditions of `C77_direct` for `maxiter + 1` sweeps, with the tolerance and the
norm of the core passed in scaled by `|c|`: both calls make the same number of sweeps and return the same value, and the second
result is the first in the new coordinates. -/
theorem C77_tucker (h2 : 2 ≤ N) (hN : N ≤ 10) (hr : ∀ j, rk j ≤ dims j) (hS : TuckShaped dims rk V W) (hS' : TuckShaped dims rk V' W')
    (hQ : ∀ j, Spec.Orthonormal (dims j) (dims j) (Q j)) (hc : c ≠ 0)
    (hV : ∀ idx : Fin N → ℕ, (∀ j, idx j < dims j) → arr V' N idx = Spec.rotTensor dims Q c (arr V N) idx)
    (hW : ∀ j, ∀ x < dims j, ∀ a < rk j, mats W' j x a = Spec.rotFactor (dims j) (Q j) (mats W j) x a)
    {core core' : Tensor ℝ} (hcore : core.lens = List.ofFn rk) (hcore' : core'.lens = List.ofFn rk) (hn : norm2 core' = |c| * norm2 core)
    {k k' : Kern ℝ} (hk : SvdShape k) (hl : SvdLeading k) (hk' : SvdShape k') (hl' : SvdLeading k')
    {P : ℕ → Fin N → ℕ → ℕ → ℝ} (h0 : Spec.Spans dims rk (mats W) (P 0)) (tol timelimit : ℝ) {maxiter : ℤ} (hm : 0 ≤ maxiter)
    (hP : ∀ n ≤ maxiter.toNat, Spec.SpanSweep dims rk (arr V N) (P n) (P (n + 1))) (clock : ℕ → ℝ) {fuel : ℕ}
    (hf : (maxiter + 1).toNat < fuel) :
    ∃ r r', alsTucker k V tol timelimit maxiter clock fuel core W = .ok r ∧
      alsTucker k' V' (|c| * tol) timelimit maxiter clock fuel core' W' = .ok r' ∧ r.ret = r'.ret ∧ r.iter = r'.iter ∧
      RotResult dims rk Q c V V' r.st.W r'.st.W := by
  obtain ⟨r, Ws, r1, r2, r3, r4, -, -⟩ := C48_tucker h2 hN hr hS hcore hk tol timelimit hm clock hf
  obtain ⟨r', Ws', r1', r2', r3', r4', -, -⟩ := C48_tucker h2 hN hr hS' hcore' hk' (|c| * tol) timelimit hm clock hf
  obtain ⟨Us, Us', u1, u1', u2⟩ := C77_direct h2 hN hr hS hS' hQ hc hV hW hk hl hk' hl' h0 (m := maxiter.toNat + 1)
    fun n hn => hP n (by omega)
  have e : Us = Ws := funext fun n => Except.ok.inj ((u1 n).symm.trans (r2 n))
  have e' : Us' = Ws' := funext fun n => Except.ok.inj ((u1' n).symm.trans (r2' n))
  subst e; subst e'
  obtain ⟨i1, i2⟩ := firstStop_unique r4 r4' (by
    intro n hle
    beta_reduce
    rw [(u2 n (by omega)).coreNorm, lastNorm_scale hn fun j hj => (u2 j (by omega)).coreNorm, scaled_test (abs_pos.2 hc)])
  have hb : r.iter ≤ maxiter.toNat + 1 := by have := r4.bound; omega
  exact ⟨r, r', r1, r1', i2, i1, by rw [r3, r3', ← i1]; exact u2 _ hb⟩

/-- **C77 (`alsTucker_DT`, whole call).** The same with the dimension tree; the core left has norm scaled by `|c|`, and the lines
printed are those of the first call with the change of the core norm and the error scaled by `|c|`. -/
theorem C77_tucker_dt (h4 : 4 ≤ N) (h5 : N ≠ 5) (hN : N ≤ 10) (hr : ∀ j, rk j ≤ dims j) (hS : TuckShaped dims rk V W)
    (hS' : TuckShaped dims rk V' W') (hQ : ∀ j, Spec.Orthonormal (dims j) (dims j) (Q j)) (hc : c ≠ 0)
    (hV : ∀ idx : Fin N → ℕ, (∀ j, idx j < dims j) → arr V' N idx = Spec.rotTensor dims Q c (arr V N) idx)
    (hW : ∀ j, ∀ x < dims j, ∀ a < rk j, mats W' j x a = Spec.rotFactor (dims j) (Q j) (mats W j) x a)
    {core core' : Tensor ℝ} (hcore : core.lens = List.ofFn rk) (hcore' : core'.lens = List.ofFn rk) (hn : norm2 core' = |c| * norm2 core)
    {k k' : Kern ℝ} (hk : SvdShape k) (hl : SvdLeading k) (hk' : SvdShape k') (hl' : SvdLeading k')
    {P : ℕ → Fin N → ℕ → ℕ → ℝ} (h0 : Spec.Spans dims rk (mats W) (P 0)) {a : LLArgs} (hm : 0 ≤ a.maxiter) (hres : a.resprint ≠ 0)
    (hP : ∀ n ≤ a.maxiter.toNat, Spec.SpanSweep dims rk (arr V N) (P n) (P (n + 1))) (clock : ℕ → ℝ) {fuel : ℕ}
    (hf : (a.maxiter + 1).toNat < fuel) :
    ∃ r r', alsTuckerDT k V a clock fuel core W = .ok r ∧
      alsTuckerDT k' V' { a with tol := |c| * a.tol } clock fuel core' W' = .ok r' ∧ r.ret = r'.ret ∧ r.iter = r'.iter ∧
      (∀ row, row ∈ r'.rows ↔ ∃ q ∈ r.rows, row = (q.1, |c| * q.2.1, |c| * q.2.2)) ∧
      RotResult dims rk Q c V V' r.st.W r'.st.W ∧ norm2 r'.st.core = |c| * norm2 r.st.core := by
  obtain ⟨r, Ws, r1, r0, r2, r3, r4, r5, r6⟩ := C48_tucker_dt h4 h5 hN hr hS hcore hk hm hres clock hf
  obtain ⟨r', Ws', r1', r0', r2', r3', r4', r5', r6'⟩ := C48_tucker_dt h4 h5 hN hr hS' hcore' hk'
    (a := { a with tol := |c| * a.tol }) hm hres clock hf
  obtain ⟨Us, Us', Cs, Cs', u1, u1', u2⟩ := C77_dt h4 h5 (by omega) hr hS hS' hQ hc hV hW hk hl hk' hl' core core' h0
    (m := a.maxiter.toNat + 1) fun n hn => hP n (by omega)
  have eq : ∀ {k : Kern ℝ} {V : Tensor ℝ} {W : List (Tensor ℝ)} {C0 : Tensor ℝ} {Us Ws : ℕ → List (Tensor ℝ)} {Cs : ℕ → Tensor ℝ}, Ws 0 = W →
      (∀ n, iterM (fun s : List (Tensor ℝ) × Tensor ℝ => tuckSweepDT k V (List.ofFn rk) s.1) n (W, C0) = .ok (Us n, Cs n)) →
      (∀ n, ∃ C, tuckSweepDT k V (List.ofFn rk) (Ws n) = .ok (Ws (n + 1), C)) → Us = Ws := by
    intro k V W C0 Us Ws Cs w0 hu hw
    funext n
    induction n with
    | zero =>
      have := Except.ok.inj (hu 0)
      rw [w0]
      exact (congrArg Prod.fst this).symm
    | succ n ih =>
      obtain ⟨C, c⟩ := hw n
      have := hu (n + 1)
      rw [iterM_succ_right, hu n] at this
      simp only [bind, Except.bind] at this
      rw [ih, c] at this
      exact (congrArg Prod.fst (Except.ok.inj this)).symm
  obtain rfl := eq r0 u1 r2
  obtain rfl := eq r0' u1' r2'
  obtain ⟨i1, i2⟩ := firstStop_unique r4 r4' (by
    intro n hle
    have ht : tuckDTTested { a with tol := |c| * a.tol } = tuckDTTested a := rfl
    beta_reduce
    rw [ht, (u2 n (by omega)).1.coreNorm, lastNorm_scale hn fun j hj => (u2 j (by omega)).1.coreNorm]
    simp only [scaled_test (abs_pos.2 hc)])
  have hb : r.iter ≤ a.maxiter.toNat + 1 := by have := r4.bound; omega
  have hrot := (u2 _ hb).1
  refine ⟨r, r', r1, r1', i2, i1, fun row => ?_, by rw [r3, r3', ← i1]; exact hrot, ?_⟩
  · have ht : tuckDTTested { a with tol := |c| * a.tol } = tuckDTTested a := rfl
    have val : ∀ n : ℕ, (n : ℤ) ≤ a.maxiter → ((n,
        |Properties.coreNorm dims rk V' (Us' n) - lastNorm (tuckDTTested a) (norm2 core') (fun n => Properties.coreNorm dims rk V' (Us' n)) n|,
        Real.sqrt (Spec.tuckErrSq dims rk (arr V' N) (mats (Us' n)))) : ℕ × ℝ × ℝ) = (n,
        |c| * |Properties.coreNorm dims rk V (Us n) - lastNorm (tuckDTTested a) (norm2 core) (fun n => Properties.coreNorm dims rk V (Us n)) n|,
        |c| * Real.sqrt (Spec.tuckErrSq dims rk (arr V N) (mats (Us n)))) := by
      intro n hle
      rw [(u2 n (by omega)).1.coreNorm, lastNorm_scale hn fun j hj => (u2 j (by omega)).1.coreNorm, ← mul_sub, abs_mul, abs_abs,
        (u2 n (by omega)).1.err, Real.sqrt_mul (sq_nonneg c), Real.sqrt_sq_eq_abs]
    rw [r6', ← i1, ht]
    constructor
    · rintro ⟨n, hle, htn, rfl⟩
      exact ⟨_, (r6 _).2 ⟨n, hle, htn, rfl⟩, val n hle.2⟩
    · rintro ⟨q, hq, rfl⟩
      obtain ⟨n, hle, htn, rfl⟩ := (r6 q).1 hq
      exact ⟨n, hle, htn, (val n hle.2).symm⟩
  · rw [r5.norm, r5'.norm, r3, r3', ← i1]
    exact hrot.coreNorm

/-! Non-vacuity: the tensor of the examples of C76 with the two coordinates of every mode exchanged, times -3. -/

/-- Exchange of the two coordinates. -/
noncomputable def exSwapQ : Fin 4 → ℕ → ℕ → ℝ := fun _ x y => if x + y = 1 then 1 else 0

theorem exSwapQ_orth (j : Fin 4) : Spec.Orthonormal 2 2 (exSwapQ j) := by
  intro a ha b hb
  interval_cases a <;> interval_cases b <;> simp [Spec.gram, sum_range_succ, exSwapQ]

noncomputable def exSwapCornV : Tensor ℝ := ⟨[2, 2, 2, 2], fun i => -3 * exCornV.val (i.map (1 - ·))⟩

noncomputable def exSwapCornW : List (Tensor ℝ) := List.replicate 4 ⟨[2, 1], fun i => if i = [1, 0] then 1 else 0⟩

theorem exSwapCornShaped : TuckShaped (N := 4) (fun _ => 2) (fun _ => 1) exSwapCornV exSwapCornW where
  lensV := by simp [exSwapCornV, List.ofFn_succ]
  count := rfl
  lensW := by
    intro j M h
    have : M ∈ exSwapCornW := List.mem_of_getElem? h
    rw [exSwapCornW, List.mem_replicate] at this
    rw [this.2]

theorem exSwap_tensor (idx : Fin 4 → ℕ) (hi : ∀ j, idx j < 2) :
    arr exSwapCornV 4 idx = Spec.rotTensor (fun _ => 2) exSwapQ (-3) (arr exCornV 4) idx := by
  unfold Spec.rotTensor
  rw [sum_eq_single (fun j => 1 - idx j)]
  · rw [prod_eq_one, one_mul]
    · simp [arr, exSwapCornV, List.map_ofFn, Function.comp_def]
    · intro j _
      have := hi j
      beta_reduce
      rw [exSwapQ, if_pos (by omega)]
  · intro y hy hne
    obtain ⟨j, hj⟩ := ne_iff.1 hne
    have h1 := hi j
    have h2 := Spec.mem_Box.1 hy j
    rw [prod_eq_zero (mem_univ j), zero_mul]
    rw [exSwapQ, if_neg]
    omega
  · intro h
    refine absurd (Spec.mem_Box.2 fun j => ?_) h
    omega

theorem exSwap_start (j : Fin 4) : ∀ x < 2, ∀ a < 1, mats (N := 4) exSwapCornW j x a =
    Spec.rotFactor 2 (exSwapQ j) (mats exCornW j) x a := by
  intro x hx a ha
  obtain rfl : a = 0 := by omega
  have e1 : exSwapCornW[j.1]? = some ⟨[2, 1], fun i => if i = [1, 0] then 1 else 0⟩ := by fin_cases j <;> rfl
  have e2 : exCornW[j.1]? = some ⟨[2, 1], fun i => if i = [0, 0] then 1 else 0⟩ := by fin_cases j <;> rfl
  simp only [Spec.rotFactor, mats, e1, e2, mat, exSwapQ]
  interval_cases x <;> simp [sum_range_succ]

theorem exZero_norm : norm2 (⟨[1, 1, 1, 1], fun _ => 0⟩ : Tensor ℝ) = |(-3)| * norm2 (⟨[1, 1, 1, 1], fun _ => 0⟩ : Tensor ℝ) := by
  have : sqNorm (⟨[1, 1, 1, 1], fun _ => 0⟩ : Tensor ℝ) = 0 := by simp [sqNorm]
  simp [norm2, this]

example : ∃ (k : Kern ℝ) (Ws Ws' : ℕ → List (Tensor ℝ)), SvdLeading k ∧
    (∀ n, iterM (tuckSweep k exCornV (List.ofFn fun _ : Fin 4 => 1)) n exCornW = .ok (Ws n)) ∧
    (∀ n, iterM (tuckSweep (negSvd k) exSwapCornV (List.ofFn fun _ : Fin 4 => 1)) n exSwapCornW = .ok (Ws' n)) ∧
    ∀ n ≤ 100, RotResult (N := 4) (fun _ => 2) (fun _ => 1) exSwapQ (-3) exCornV exSwapCornV (Ws n) (Ws' n) := by
  obtain ⟨k, hl, hk⟩ := exists_svdLeading
  obtain ⟨Ws, Ws', h⟩ := C77_direct (N := 4) (by norm_num) (by norm_num) (fun _ => by norm_num) exCornShaped exSwapCornShaped exSwapQ_orth
    (by norm_num) exSwap_tensor exSwap_start hk hl (negSvd_shape hk) (negSvd_leading hl) (P := fun _ => exCornP) exCornSpans (m := 100)
    fun _ _ => exCornSweep
  exact ⟨k, Ws, Ws', hl, h⟩

example : ∃ (k : Kern ℝ) (r r' : LLEnd TuckState), SvdLeading k ∧
    alsTucker k exCornV 1 60 7 (fun _ => 0) 9 ⟨[1, 1, 1, 1], fun _ => 0⟩ exCornW = .ok r ∧
    alsTucker (negSvd k) exSwapCornV (|(-3)| * 1) 60 7 (fun _ => 0) 9 ⟨[1, 1, 1, 1], fun _ => 0⟩ exSwapCornW = .ok r' ∧
    RotResult (N := 4) (fun _ => 2) (fun _ => 1) exSwapQ (-3) exCornV exSwapCornV r.st.W r'.st.W := by
  obtain ⟨k, hl, hk⟩ := exists_svdLeading
  obtain ⟨r, r', a, b, -, -, d⟩ := C77_tucker (N := 4) (by norm_num) (by norm_num) (fun _ => by norm_num) exCornShaped exSwapCornShaped
    exSwapQ_orth (c := -3) (by norm_num) exSwap_tensor exSwap_start (core := ⟨[1, 1, 1, 1], fun _ => 0⟩) (core' := ⟨[1, 1, 1, 1], fun _ => 0⟩)
    (by simp [List.ofFn_succ]) (by simp [List.ofFn_succ]) exZero_norm hk hl (negSvd_shape hk) (negSvd_leading hl)
    (P := fun _ => exCornP) exCornSpans 1 60 (maxiter := 7) (by norm_num) (fun _ _ => exCornSweep) (fun _ => 0) (fuel := 9) (by norm_num)
  exact ⟨k, r, r', hl, a, b, d⟩

example : ∃ (k : Kern ℝ) (r r' : LLEnd TuckState), SvdLeading k ∧
    alsTuckerDT k exCornV ⟨1, 60, 7, 10⟩ (fun _ => 0) 9 ⟨[1, 1, 1, 1], fun _ => 0⟩ exCornW = .ok r ∧
    alsTuckerDT (negSvd k) exSwapCornV ⟨|(-3)| * 1, 60, 7, 10⟩ (fun _ => 0) 9 ⟨[1, 1, 1, 1], fun _ => 0⟩ exSwapCornW = .ok r' ∧
    norm2 r'.st.core = |(-3)| * norm2 r.st.core := by
  obtain ⟨k, hl, hk⟩ := exists_svdLeading
  obtain ⟨r, r', a, b, -, -, -, -, d⟩ := C77_tucker_dt (N := 4) (by norm_num) (by norm_num) (by norm_num) (fun _ => by norm_num) exCornShaped
    exSwapCornShaped exSwapQ_orth (c := -3) (by norm_num) exSwap_tensor exSwap_start (core := ⟨[1, 1, 1, 1], fun _ => 0⟩)
    (core' := ⟨[1, 1, 1, 1], fun _ => 0⟩) (by simp [List.ofFn_succ]) (by simp [List.ofFn_succ]) exZero_norm hk hl (negSvd_shape hk)
    (negSvd_leading hl) (P := fun _ => exCornP) exCornSpans (a := ⟨1, 60, 7, 10⟩) (by norm_num) (by norm_num) (fun _ _ => exCornSweep)
    (fun _ => 0) (fuel := 9) (by norm_num)
  exact ⟨k, r, r', hl, a, b, d⟩

example : ∃ (k : Kern ℝ) (C C' : Tensor ℝ) (F F' : List (Tensor ℝ)), SvdLeading k ∧
    hosvd k exCornV (List.ofFn fun _ : Fin 4 => 1) = .ok (C, F) ∧ hosvd (negSvd k) exSwapCornV (List.ofFn fun _ : Fin 4 => 1) = .ok (C', F') ∧
    RotResult (N := 4) (fun _ => 2) (fun _ => 1) exSwapQ (-3) exCornV exSwapCornV F F' := by
  obtain ⟨k, hl, hk⟩ := exists_svdLeading
  obtain ⟨C, F, C', F', a, b, d, -⟩ := C77_hosvd (N := 4) (by norm_num) (by norm_num) exCornShaped.lensV exSwapCornShaped.lensV
    (fun _ => by norm_num) exSwapQ_orth (c := -3) (by norm_num) exSwap_tensor hk hl (negSvd_shape hk) (negSvd_leading hl)
    (P := exCornP) fun i => lead2 (by norm_num) (exCornUnfold i) fun _ _ _ _ => rfl
  exact ⟨k, C, C', F, F', hl, a, b, d⟩

end Properties
