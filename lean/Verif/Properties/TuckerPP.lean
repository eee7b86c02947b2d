import Verif.Proofs.TuckerPPSweep
import Verif.Properties.Hooi
import Verif.Properties.PP

/-! # C36: pairwise perturbation for Tucker -/

namespace Properties

open Model Finset Function

section

variable {K : Type} [CommRing K] {N : ℕ} {dims rk : Fin N → ℕ} {V : Tensor K} {Winit dW : List (Tensor K)}

/-- **C36.** Orders 3..9: the operators of a Tucker PP phase are built without fault; the one stored for all modes but `i` is
the input multiplied by all factors but the `i`-th, the one for all modes but `i < j` leaves modes `i` and `j` untouched. -/
theorem C36_operators_exact (h3 : 3 ≤ N) (h9 : N ≤ 9) (hS : TuckShaped dims rk V Winit) :
    ∃ ops, tuckOperators N V Winit = .ok ops ∧
      (∀ i : Fin N, ∃ T, ops.lookup (keyWithout N fun m => decide (m = i.1)) = some T ∧
        T.lens = List.ofFn (Spec.ttmShape dims rk {i}) ∧
        ∀ z : Fin N → ℕ, (∀ j, z j < Spec.ttmShape dims rk {i} j) →
          arr T N z = Spec.multiTTM dims (arr V N) (mats Winit) {i} z) ∧
      ∀ i j : Fin N, i < j → ∃ T, ops.lookup (keyWithout N fun m => decide (m = i.1 ∨ m = j.1)) = some T ∧
        T.lens = List.ofFn (Spec.ttmShape dims rk {i, j}) ∧
        ∀ z : Fin N → ℕ, (∀ m, z m < Spec.ttmShape dims rk {i, j} m) →
          arr T N z = Spec.multiTTM dims (arr V N) (mats Winit) {i, j} z := by
  obtain ⟨ops, h1, h2, h4⟩ := tuckOperators_ok h3 h9 hS
  refine ⟨ops, h1, fun i => ?_, fun i j hij => ?_⟩
  · obtain ⟨T, hT, hG⟩ := h2 i
    have hv := hG.2
    rw [keep_ex1] at hv
    exact ⟨T, by rw [keyWithout_one (by omega)]; exact hT, hv.1, hv.2⟩
  · obtain ⟨T, hT, hG⟩ := h4 i j hij
    have hv := hG.2
    rw [keep_ex2 hij] at hv
    exact ⟨T, by rw [keyWithout_two (by omega) hij]; exact hT, hv.1, hv.2⟩

/-- **C36 (violation).** At orders 1 and 2 and from order 10 on, building the operators overflows the 8-byte key buffer. -/
theorem C36_overflow (h : (1 ≤ N ∧ N ≤ 2) ∨ 10 ≤ N) (hS : TuckShaped dims rk V Winit) :
    tuckOperators N V Winit = .error .ub := tuckOperators_overflow h hS

/-- **C36.** Orders 3..9, any displacements: the tensor `Y` a PP phase uses for mode `i` is the exact product at the factors the
operators were built from, plus for every other mode `j` the product with the factor of mode `j` replaced by its displacement;
and the exact product at the displaced factors exceeds it exactly by the terms with two or more displacements. -/
theorem C36_first_order (h3 : 3 ≤ N) (h9 : N ≤ 9) (hS : TuckShaped dims rk V Winit) (hD : TuckShaped dims rk V dW)
    (i : Fin N) : ∃ ops Y, tuckOperators N V Winit = .ok ops ∧ tuckPPY N ops dW i.1 = .ok Y ∧
      Y.lens = List.ofFn (Spec.ttmShape dims rk {i}) ∧
      ∀ z : Fin N → ℕ, (∀ j, z j < Spec.ttmShape dims rk {i} j) →
        arr Y N z = Spec.ppTTM dims (arr V N) (mats Winit) (mats dW) i z ∧
        Spec.multiTTM dims (arr V N) (Spec.displace (mats Winit) (mats dW)) {i} z = arr Y N z +
          ∑ S ∈ (univ.erase i).powerset with 2 ≤ S.card,
            Spec.multiTTM dims (arr V N) (Spec.mix (mats Winit) (mats dW) S) {i} z := by
  obtain ⟨ops, h1, h2⟩ := tuckOperators_ok h3 h9 hS
  obtain ⟨Y, m1, _, m3, m4⟩ := tuckPPY_ok (by omega) h2 hD i
  refine ⟨ops, Y, h1, m1, m3, fun z hz => ⟨m4 z hz, ?_⟩⟩
  rw [m4 z hz]
  exact Spec.multiTTM_displace_eq _ _ _ _

/-- **C36 (exact case).** If at most one mode other than `i` is displaced, `Y` is the exact product at the displaced factors. -/
theorem C36_exact (h3 : 3 ≤ N) (h9 : N ≤ 9) (hS : TuckShaped dims rk V Winit) (hD : TuckShaped dims rk V dW)
    (i j0 : Fin N) (h0 : ∀ j, j ≠ i → j ≠ j0 → ∀ y < dims j, ∀ r < rk j, mats dW j y r = 0) :
    ∃ ops Y, tuckOperators N V Winit = .ok ops ∧ tuckPPY N ops dW i.1 = .ok Y ∧
      ∀ z : Fin N → ℕ, (∀ j, z j < Spec.ttmShape dims rk {i} j) →
        arr Y N z = Spec.multiTTM dims (arr V N) (Spec.displace (mats Winit) (mats dW)) {i} z := by
  obtain ⟨ops, Y, h1, h2, _, h5⟩ := C36_first_order h3 h9 hS hD i
  refine ⟨ops, Y, h1, h2, fun z hz => ?_⟩
  rw [(h5 z hz).1]
  refine (Spec.ppTTM_exact (j0 := j0) (fun j hj1 hj2 y hy => h0 j hj1 hj2 y hy _ ?_)).symm
  have := hz j
  simpa [Spec.ttmShape, hj1] using this

/-- **C36 (order of the error).** Shrinking all displacements by `t` leaves an error of second order in `t`. -/
theorem C36_error_order (t : K) (W D : Fin N → ℕ → ℕ → K) (A : (Fin N → ℕ) → K) (i : Fin N) (z : Fin N → ℕ) :
    Spec.multiTTM dims A (Spec.displace W fun j y r => t * D j y r) {i} z =
      Spec.ppTTM dims A W (fun j y r => t * D j y r) i z + t ^ 2 *
        ∑ S ∈ (univ.erase i).powerset with 2 ≤ S.card, t ^ (S.card - 2) * Spec.multiTTM dims A (Spec.mix W D S) {i} z := by
  rw [Spec.multiTTM_displace_eq, mul_sum]
  congr 1
  refine sum_congr rfl fun S hS => ?_
  rw [mem_filter, mem_powerset] at hS
  rw [Spec.multiTTM_mix_scale t W D hS.1, ← mul_assoc, ← pow_add]
  congr 2
  omega

end

section Sweeps

variable {N : ℕ} {dims rk : Fin N → ℕ} {V : Tensor ℝ} {Winit W dW : List (Tensor ℝ)}

/-- **C36.** One mode update of a Tucker PP phase: the new factor has orthonormal columns and, among all matrices with
orthonormal columns, maximises the norm of the first-order `Y` multiplied along mode `i`; its columns point the way of the
reference; the displacement of mode `i` becomes new factor minus reference; nothing else changes. -/
theorem C36_update (h3 : 3 ≤ N) (h9 : N ≤ 9) (hr : ∀ j, rk j ≤ dims j) (hS : TuckShaped dims rk V Winit)
    (hW : TuckShaped dims rk V W) (hD : TuckShaped dims rk V dW) {k : Kern ℝ} (hl : SvdLeading k) (i : Fin N) (Ye : Tensor ℝ) :
    ∃ ops W' dW' Ye', tuckOperators N V Winit = .ok ops ∧
      tuckPPUpdate N k (List.ofFn rk) ops Winit (W, dW, Ye) i.1 = .ok (W', dW', Ye') ∧
      (∀ j, j ≠ i → mats (N := N) W' j = mats W j ∧ mats (N := N) dW' j = mats dW j) ∧
      Spec.Orthonormal (dims i) (rk i) (mats W' i) ∧
      (∀ B, Spec.Orthonormal (dims i) (rk i) B →
        Spec.sumSq rk (Spec.ttm1 (dims i) (Spec.ppTTM dims (arr V N) (mats Winit) (mats dW) i) i B) ≤
          Spec.sumSq rk (Spec.ttm1 (dims i) (Spec.ppTTM dims (arr V N) (mats Winit) (mats dW) i) i (mats W' i))) ∧
      (∀ x < dims i, ∀ r < rk i, mats dW' i x r = mats W' i x r - mats Winit i x r) ∧
      ∀ r < rk i, 0 ≤ ∑ x ∈ range (dims i), mats W' i x r * mats Winit i x r := by
  obtain ⟨ops, h1, h2⟩ := tuckOperators_ok h3 h9 hS
  obtain ⟨s', a, b, _⟩ := tuckPPUpdate_ok (by omega) hr h2 hS (s := (W, dW, Ye)) hW hD hl i
  exact ⟨ops, s'.1, s'.2.1, s'.2.2, h1, a, fun j hj => ⟨b.otherW j hj, b.otherD j hj⟩, b.ortho, b.best, b.disp, b.sign⟩

/-- What holds after every sweep of a Tucker PP phase started at `Winit`. -/
structure PhaseInv (dims rk : Fin N → ℕ) (V : Tensor ℝ) (Winit W dW : List (Tensor ℝ)) : Prop where
  shW : TuckShaped dims rk V W
  shD : TuckShaped dims rk V dW
  ortho : ∀ i : Fin N, Spec.Orthonormal (dims i) (rk i) (mats W i)
  disp : ∀ i : Fin N, ∀ x < dims i, ∀ r < rk i, mats dW i x r = mats W i x r - mats Winit i x r
  sign : ∀ i : Fin N, ∀ r < rk i, 0 ≤ ∑ x ∈ range (dims i), mats W i x r * mats Winit i x r

/-- **C36.** A sweep of a Tucker PP phase from any state: all factors become orthonormal, all displacements become factor minus
reference, and the core is the first-order `Y` of the last mode multiplied by the new last factor. -/
theorem C36_sweep (h3 : 3 ≤ N) (h9 : N ≤ 9) (hr : ∀ j, rk j ≤ dims j) (hS : TuckShaped dims rk V Winit)
    (hW : TuckShaped dims rk V W) (hD : TuckShaped dims rk V dW) {k : Kern ℝ} (hl : SvdLeading k) (l : Fin N)
    (hlast : l.1 = N - 1) :
    ∃ ops W' dW' C, tuckOperators N V Winit = .ok ops ∧
      tuckPPSweep N k (List.ofFn rk) ops Winit W dW = .ok (W', dW', C) ∧ PhaseInv dims rk V Winit W' dW' ∧
      C.lens = List.ofFn rk ∧
      ∀ z : Fin N → ℕ, (∀ j, z j < rk j) → arr C N z =
        Spec.ttm1 (dims l) (Spec.ppTTM dims (arr V N) (mats Winit) (mats dW') l) l (mats W' l) z := by
  obtain ⟨ops, h1, h2⟩ := tuckOperators_ok h3 h9 hS
  obtain ⟨st, C, s1, s2, s3, s4, s5⟩ := tuckPPSweep_ok (by omega) l hlast hr h2 hS hW hD hl
  refine ⟨ops, (st N).1, (st N).2, C, h1, s1, ?_, s4, s5⟩
  have key : ∀ n ≤ N, ∀ i : Fin N, i.1 < n → Spec.Orthonormal (dims i) (rk i) (mats (st n).1 i) ∧
      (∀ x < dims i, ∀ r < rk i, mats (st n).2 i x r = mats (st n).1 i x r - mats Winit i x r) ∧
      ∀ r < rk i, 0 ≤ ∑ x ∈ range (dims i), mats (st n).1 i x r * mats Winit i x r := by
    intro n
    induction n with
    | zero => intro _ i hi; omega
    | succ n ih =>
      intro hn i hi
      have hs := s3 ⟨n, by omega⟩
      simp only at hs
      by_cases e : i.1 = n
      · have : (⟨n, by omega⟩ : Fin N) = i := Fin.ext e.symm
        rw [this] at hs
        exact ⟨hs.ortho, hs.disp, hs.sign⟩
      · have hne : i ≠ ⟨n, by omega⟩ := fun h => e (congrArg Fin.val h)
        rw [hs.otherW i hne, hs.otherD i hne]
        exact ih (by omega) i (by omega)
  have hN1 := s3 l
  rw [hlast, show N - 1 + 1 = N by omega] at hN1
  exact ⟨hN1.shW, hN1.shD, fun i => (key N le_rfl i i.2).1, fun i => (key N le_rfl i i.2).2.1, fun i => (key N le_rfl i i.2).2.2⟩

/-- **C36.** Unlike the CP driver (C29), the Tucker driver keeps `W = W_init + dW` through a whole PP phase: any positive number
of sweeps with the operators of `Winit` runs without fault and ends in a state with that relation, orthonormal factors and
aligned signs. -/
theorem C36_phase (h3 : 3 ≤ N) (h9 : N ≤ 9) (hr : ∀ j, rk j ≤ dims j) (hS : TuckShaped dims rk V Winit)
    (hW : TuckShaped dims rk V W) (hD : TuckShaped dims rk V dW) {k : Kern ℝ} (hl : SvdLeading k) :
    ∃ ops, tuckOperators N V Winit = .ok ops ∧ ∃ (Ws dWs : ℕ → List (Tensor ℝ)), Ws 0 = W ∧ dWs 0 = dW ∧
      (∀ n, iterM (fun s : List (Tensor ℝ) × List (Tensor ℝ) => do
        let r ← tuckPPSweep N k (List.ofFn rk) ops Winit s.1 s.2
        pure (r.1, r.2.1)) n (W, dW) = .ok (Ws n, dWs n)) ∧
      ∀ n, PhaseInv dims rk V Winit (Ws (n + 1)) (dWs (n + 1)) := by
  obtain ⟨ops, h1, -⟩ := tuckOperators_ok h3 h9 hS
  obtain ⟨f, w1, w2, w3⟩ := iterM_seq (s := (W, dW))
    (step := fun s : List (Tensor ℝ) × List (Tensor ℝ) => do
        let r ← tuckPPSweep N k (List.ofFn rk) ops Winit s.1 s.2
        pure (r.1, r.2.1))
    (P := fun s => TuckShaped dims rk V s.1 ∧ TuckShaped dims rk V s.2)
    (R := fun _ b => PhaseInv dims rk V Winit b.1 b.2) (by
      rintro ⟨w, d⟩ ⟨hw, hd⟩
      obtain ⟨ops', W', dW', C, a, b, c, _⟩ := C36_sweep h3 h9 hr hS hw hd hl ⟨N - 1, by omega⟩ rfl
      rw [h1] at a
      cases a
      refine ⟨(W', dW'), ?_, ⟨c.shW, c.shD⟩, c⟩
      simp only [bind, Except.bind, pure, Except.pure]
      rw [b]) ⟨hW, hD⟩
  exact ⟨ops, h1, fun n => (f n).1, fun n => (f n).2, by simp [w1], by simp [w1], w2, fun n => (w3 n).2⟩

/-! The hypotheses are met. -/

example := C36_operators_exact (by norm_num) (by norm_num) exTuckShaped
example := C36_first_order (by norm_num) (by norm_num) exTuckShaped exTuckShaped 1
example : ∃ k : Kern ℝ, ∃ ops W' dW' C, tuckOperators 4 exTuckV exTuckW = .ok ops ∧
    tuckPPSweep 4 k [1, 2, 1, 3] ops exTuckW exTuckW exTuckW = .ok (W', dW', C) := by
  obtain ⟨k, hl, _⟩ := exists_svdLeading
  obtain ⟨ops, W', dW', C, a, b, _⟩ := C36_sweep (by norm_num) (by norm_num) exTuckRank exTuckShaped exTuckShaped exTuckShaped hl
    3 (by norm_num)
  exact ⟨k, ops, W', dW', C, a, b⟩

end Sweeps

end Properties
