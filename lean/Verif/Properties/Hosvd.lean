import Verif.Proofs.Hosvd
import Verif.Properties.MainNeg

/-! # C69: HOSVD and the Tucker drivers started from it are quasi-optimal -/

namespace Properties

open Model Finset

variable {N : ℕ} {dims rk : Fin N → ℕ}

/-- The factors `F` are as good as any core `G` with any factors `B` of the same ranks (orthonormal or not), up to a factor `N` in the
squared error. -/
def QuasiOptimal (dims rk : Fin N → ℕ) (V : Tensor ℝ) (F : List (Tensor ℝ)) : Prop :=
  ∀ (G : (Fin N → ℕ) → ℝ) (B : Fin N → ℕ → ℕ → ℝ),
    Spec.tuckErrSq dims rk (arr V N) (mats F) ≤ N * ∑ idx ∈ Spec.Box dims, (arr V N idx - Spec.tuckRecon rk G B idx) ^ 2

/-- **C69 (`hosvd`).** Orders 1..18, any tensor, ranks at most the lengths, an SVD returning the leading singular vectors: `hosvd`
returns orthonormal factors and their core, with an error of at most `sqrt N` times that of any approximation with these ranks. -/
theorem C69_hosvd {V : Tensor ℝ} (h1 : 1 ≤ N) (hN : N ≤ 18) (hV : V.lens = List.ofFn dims) (hr : ∀ j, rk j ≤ dims j)
    {k : Kern ℝ} (hk : SvdShape k) (hl : SvdLeading k) :
    ∃ C F, hosvd k V (List.ofFn rk) = .ok (C, F) ∧ TuckShaped dims rk V F ∧ IsCore dims rk V F C ∧
      (∀ j : Fin N, Spec.Orthonormal (dims j) (rk j) (mats F j)) ∧ QuasiOptimal dims rk V F := by
  obtain ⟨C, F, e1, e2, e3, e4, e5, -⟩ := C34_hosvd h1 hN hV hr hk
  have hloss : ∀ i : Fin N, Spec.Orthonormal (dims i) (rk i) (mats F i) ∧ ∀ r ≤ rk i, ∀ B, Spec.Orthonormal (dims i) r B →
      ∑ a ∈ range r, ∑ x ∈ range (dims i), ∑ y ∈ range (dims i), B x a * Spec.unfoldGram dims (arr V N) i x y * B y a ≤
        ∑ a ∈ range (rk i), ∑ x ∈ range (dims i), ∑ y ∈ range (dims i),
          mats F i x a * Spec.unfoldGram dims (arr V N) i x y * mats F i y a := by
    intro i
    obtain ⟨M, m1, m2, m3⟩ := e3 i
    have hp := unfoldGram_posSemidef dims (arr V N) i m2
    have hs := hl _ _ M m1 (hr i) hp
    have e : mats (N := N) F i = mat (k.svd M (rk i)).U := by
      funext x y
      unfold mats
      rw [m3]
    rw [e]
    refine ⟨(hs.best (hr i) hp).1, fun r hr' B hB => ?_⟩
    have h := hs.best_le (hr i) hr' hp hB
    have conv : ∀ (q : ℕ) (A : ℕ → ℕ → ℝ),
        ∑ a ∈ range q, ∑ x ∈ range (dims i), ∑ y ∈ range (dims i), A x a * mat M x y * A y a =
          ∑ a ∈ range q, ∑ x ∈ range (dims i), ∑ y ∈ range (dims i), A x a * Spec.unfoldGram dims (arr V N) i x y * A y a := by
      intro q A
      refine sum_congr rfl fun a _ => sum_congr rfl fun x hx => sum_congr rfl fun y hy => ?_
      rw [m2 x (mem_range.1 hx) y (mem_range.1 hy)]
    rw [conv, conv] at h
    exact h
  refine ⟨C, F, e1, e2, ⟨e4, e5⟩, fun j => (hloss j).1, fun G B => ?_⟩
  refine (tuckErr_le_losses fun j => (hloss j).1).trans ?_
  calc ∑ i, modeLoss dims rk (arr V N) (mats F) i
      ≤ ∑ _i : Fin N, ∑ idx ∈ Spec.Box dims, (arr V N idx - Spec.tuckRecon rk G B idx) ^ 2 :=
        sum_le_sum fun i _ => modeLoss_le (hloss i).1 (hloss i).2 G B
    _ = _ := by simp

/-- A quasi-optimal approximation of a tensor that has a decomposition with these ranks is exact. -/
theorem QuasiOptimal.exact {V : Tensor ℝ} {F : List (Tensor ℝ)} {C : Tensor ℝ} (h : QuasiOptimal dims rk V F)
    (hC : IsCore dims rk V F C) {G : (Fin N → ℕ) → ℝ} {B : Fin N → ℕ → ℕ → ℝ}
    (hV : ∀ idx : Fin N → ℕ, (∀ j, idx j < dims j) → arr V N idx = Spec.tuckRecon rk G B idx) :
    ∀ idx : Fin N → ℕ, (∀ j, idx j < dims j) → Spec.tuckRecon rk (arr C N) (mats F) idx = arr V N idx := by
  intro idx hidx
  have h1 := h G B
  have h2 : ∑ idx ∈ Spec.Box dims, (arr V N idx - Spec.tuckRecon rk G B idx) ^ 2 = 0 :=
    sum_eq_zero fun z hz => by rw [hV z (Spec.mem_Box.1 hz)]; ring
  rw [h2, mul_zero] at h1
  unfold Spec.tuckErrSq at h1
  have h3 := (sum_eq_zero_iff_of_nonneg fun z _ => sq_nonneg _).1 (le_antisymm h1 (sum_nonneg fun z _ => sq_nonneg _)) idx
    (Spec.mem_Box.2 hidx)
  have h4 : Spec.tuckRecon rk (arr C N) (mats F) idx =
      Spec.tuckRecon rk (Spec.multiTTM dims (arr V N) (mats F) ∅) (mats F) idx :=
    sum_congr rfl fun z hz => by rw [hC.2 z (Spec.mem_Box.1 hz)]
  rw [h4]
  have := pow_eq_zero_iff (two_ne_zero) |>.1 h3
  linarith

/-- **C69 (`hosvd`, exact).** If the tensor has a Tucker decomposition with these ranks (in particular if it is a CP model of rank at
most every `rk j`, or if `rk = dims`), the core and the factors `hosvd` returns reproduce it exactly. -/
theorem C69_hosvd_exact {V : Tensor ℝ} (h1 : 1 ≤ N) (hN : N ≤ 18) (hV : V.lens = List.ofFn dims) (hr : ∀ j, rk j ≤ dims j)
    {k : Kern ℝ} (hk : SvdShape k) (hl : SvdLeading k) {G : (Fin N → ℕ) → ℝ} {B : Fin N → ℕ → ℕ → ℝ}
    (hG : ∀ idx : Fin N → ℕ, (∀ j, idx j < dims j) → arr V N idx = Spec.tuckRecon rk G B idx) :
    ∃ C F, hosvd k V (List.ofFn rk) = .ok (C, F) ∧
      ∀ idx : Fin N → ℕ, (∀ j, idx j < dims j) → Spec.tuckRecon rk (arr C N) (mats F) idx = arr V N idx := by
  obtain ⟨C, F, e1, -, e3, -, e5⟩ := C69_hosvd h1 hN hV hr hk hl
  exact ⟨C, F, e1, e5.exact e3 hG⟩

/-- **C69 (`hosvd`, full ranks).** With `rk = dims` the decomposition is exact for every tensor. -/
theorem C69_hosvd_full {V : Tensor ℝ} (h1 : 1 ≤ N) (hN : N ≤ 18) (hV : V.lens = List.ofFn dims)
    {k : Kern ℝ} (hk : SvdShape k) (hl : SvdLeading k) :
    ∃ C F, hosvd k V (List.ofFn dims) = .ok (C, F) ∧
      ∀ idx : Fin N → ℕ, (∀ j, idx j < dims j) → Spec.tuckRecon dims (arr C N) (mats F) idx = arr V N idx := by
  refine C69_hosvd_exact h1 hN hV (fun _ => le_rfl) hk hl (G := arr V N) (B := fun _ x y => if x = y then 1 else 0) ?_
  intro idx hidx
  unfold Spec.tuckRecon
  rw [sum_eq_single idx]
  · simp
  · intro z _ hz
    obtain ⟨j, hj⟩ := Function.ne_iff.1 hz
    rw [prod_eq_zero (mem_univ j) (if_neg (Ne.symm hj)), mul_zero]
  · intro h
    exact absurd (Spec.mem_Box.2 hidx) h

/-- **C69 (`alsTucker`).** Orders 2..10.  Started from `hosvd`, whatever `tol`, `timelimit`, `maxiter` and the clock are, `alsTucker`
returns factors within `sqrt N` of the best approximation with these ranks. -/
theorem C69_tucker {V : Tensor ℝ} (h2 : 2 ≤ N) (hN : N ≤ 10) (hV : V.lens = List.ofFn dims) (hr : ∀ j, rk j ≤ dims j)
    {k : Kern ℝ} (hk : SvdShape k) (hl : SvdLeading k) (tol timelimit : ℝ) {maxiter : ℤ} (hm : 0 ≤ maxiter) (clock : ℕ → ℝ)
    {fuel : ℕ} (hf : (maxiter + 1).toNat < fuel) :
    ∃ C F r, hosvd k V (List.ofFn rk) = .ok (C, F) ∧ alsTucker k V tol timelimit maxiter clock fuel C F = .ok r ∧
      TuckShaped dims rk V r.st.W ∧ (∀ j : Fin N, Spec.Orthonormal (dims j) (rk j) (mats r.st.W j)) ∧
      QuasiOptimal dims rk V r.st.W := by
  obtain ⟨C, F, e1, e2, e3, e4, e5⟩ := C69_hosvd (by omega) (by omega) hV hr hk hl
  obtain ⟨r, Ws, r1, r2, r3, -⟩ := C48_tucker h2 hN hr e2 e3.1 hk tol timelimit hm clock hf
  obtain ⟨Ws', w1, w2, w3, w4, w5⟩ := C38_direct_monotone h2 hN hr e2 hk hl
  have e : Ws = Ws' := by
    funext n
    have := r2 n
    rw [w2 n] at this
    exact (Except.ok.inj this).symm
  subst e
  have hle : ∀ n, Spec.tuckErrSq dims rk (arr V N) (mats (Ws n)) ≤ Spec.tuckErrSq dims rk (arr V N) (mats F) := by
    intro n
    induction n with
    | zero => rw [w1]
    | succ n ih => exact (w5 n (.inr (by rw [w1]; exact e4))).2.trans ih
  refine ⟨C, F, r, e1, r1, by rw [r3]; exact w3 _, ?_, fun G B => ?_⟩
  · rw [r3]
    rcases Nat.eq_zero_or_pos r.iter with h | h
    · rw [h, w1]; exact e4
    · exact w4 _ h
  · rw [r3]; exact (hle _).trans (e5 G B)

/-- **C69 (`alsTucker_DT`).** Orders 4, 6..10; the same, and the core returned is the core of the factors returned. -/
theorem C69_tucker_dt {V : Tensor ℝ} (h4 : 4 ≤ N) (h5 : N ≠ 5) (hN : N ≤ 10) (hV : V.lens = List.ofFn dims) (hr : ∀ j, rk j ≤ dims j)
    {k : Kern ℝ} (hk : SvdShape k) (hl : SvdLeading k) {a : LLArgs} (hm : 0 ≤ a.maxiter) (hres : a.resprint ≠ 0) (clock : ℕ → ℝ)
    {fuel : ℕ} (hf : (a.maxiter + 1).toNat < fuel) :
    ∃ C F r, hosvd k V (List.ofFn rk) = .ok (C, F) ∧ alsTuckerDT k V a clock fuel C F = .ok r ∧
      TuckShaped dims rk V r.st.W ∧ (∀ j : Fin N, Spec.Orthonormal (dims j) (rk j) (mats r.st.W j)) ∧
      IsCore dims rk V r.st.W r.st.core ∧ QuasiOptimal dims rk V r.st.W := by
  obtain ⟨C, F, e1, e2, e3, e4, e5⟩ := C69_hosvd (by omega) (by omega) hV hr hk hl
  obtain ⟨r, Ws, r1, r0, r2, r3, -, r5, -⟩ := C48_tucker_dt h4 h5 hN hr e2 e3.1 hk hm hres clock hf
  obtain ⟨Ws', Cs, w1, ⟨w3, w4, w5⟩, w2⟩ := C38_dt_monotone h4 h5 (by omega) hr e2 hk hl C
  have e : Ws = Ws' := by
    funext n
    induction n with
    | zero => rw [r0, w1]
    | succ n ih =>
      obtain ⟨C, c⟩ := r2 n
      have h1 := (w2 n).1
      have h2 := (w2 (n + 1)).1
      rw [iterM_succ_right, h1] at h2
      change tuckSweepDT k V (List.ofFn rk) (Ws' n) = _ at h2
      rw [ih, h2] at c
      exact (Prod.mk.inj (Except.ok.inj c)).1.symm
  subst e
  have hle : ∀ n, Spec.tuckErrSq dims rk (arr V N) (mats (Ws n)) ≤ Spec.tuckErrSq dims rk (arr V N) (mats F) := by
    intro n
    induction n with
    | zero => rw [w1]
    | succ n ih => exact (w5 n (.inr (by rw [w1]; exact e4))).2.trans ih
  refine ⟨C, F, r, e1, r1, by rw [r3]; exact w3 _, ?_, r5, fun G B => ?_⟩
  · rw [r3]
    rcases Nat.eq_zero_or_pos r.iter with h | h
    · rw [h, w1]; exact e4
    · exact w4 _ h
  · rw [r3]; exact (hle _).trans (e5 G B)

/-- **C69 (test_ALS).** `-model Tucker -pp 0`, with the other options as in C57: the program ends with factors and a core within
`sqrt N` of the best approximation of the tensor with these ranks; if the tensor has such a decomposition it is found. -/
theorem C69_test {E : MainEnv} {o : Opts} {atof : CStr → F64} {argv : List CStr} (ho : testOpts atof argv = .ok o) (hf : o.Finite)
    (hs : 1 ≤ o.size) (hr : o.resprint ≠ 0) (hin : InputOk E o) (hd : MainDims o dims) (h4 : 4 ≤ N) (h5 : N ≠ 5) (h9 : N ≤ 9)
    (hT : o.model.head? = some 'T') (hp : o.pp = 0) (hk : SvdShape E.kern) (hl : SvdLeading E.kern) :
    ∃ V, ∃ rk : Fin N → ℕ, InputSpec E o V ∧ V.lens = List.ofFn dims ∧ MainRanks o rk ∧ ∃ fuel0 : ℕ, ∀ fuel ≥ fuel0,
      ∃ r, testMain E fuel o = .ok (V, .tuckDT r) ∧ IsCore dims rk V r.st.W r.st.core ∧ QuasiOptimal dims rk V r.st.W := by
  obtain ⟨V, C0, F0, rk, v1, v2, v3, v4, v5, n, h⟩ := C57_tucker ho hf hs hr hin hd h4 h5 h9 hT hk hl
    (fun h => absurd (hp.symm.trans h) (by norm_num)) (fun h => absurd (hp.symm.trans h) (by norm_num))
  have hR : 0 ≤ o.R ∧ o.R ≤ o.size :=
    optValid (v := fun x => 0 ≤ x ∧ x ≤ o.size) (C44_test_values ho).2.2.2.2.1 (by omega)
  obtain ⟨rk', k1, k2⟩ := mainRanks_le hd hs hR.2 hin
  have hrk : rk' = rk := by
    have a := mainRanks_eq.1 k1
    have b := mainRanks_eq.1 v4
    rw [a] at b
    exact List.ofFn_injective b
  subst hrk
  obtain ⟨C, F, e1, -, -, -, e5⟩ := C69_hosvd (by omega) (by omega) v3 k2 hk hl
  rw [v5] at e1
  obtain ⟨-, rfl⟩ := Prod.mk.inj (Except.ok.inj e1)
  refine ⟨V, rk', v2, v3, v4, n, fun fuel hfu => ?_⟩
  obtain ⟨out, o1, o2⟩ := h fuel hfu
  cases out with
  | tuckDT r =>
    obtain ⟨-, -, -, -, -, c1, c2, -⟩ := o2
    exact ⟨r, o1, c1, fun G B => c2.trans (e5 G B)⟩
  | tuckPP r ret => exact absurd (hp.symm.trans o2.1) (by norm_num)
  | nothing =>
    have h2 : o.pp = 2 := o2
    exact absurd (hp.symm.trans h2) (by norm_num)
  | cpDT r => exact o2.elim
  | cpPP r b => exact o2.elim
  | cpPart r b => exact o2.elim

/-! Non-vacuity. -/

example : ∃ (k : Kern ℝ) (C : Tensor ℝ) (F : List (Tensor ℝ)), SvdShape k ∧ SvdLeading k ∧
    hosvd k exTuckV [1, 2, 1, 3] = .ok (C, F) ∧ QuasiOptimal (N := 4) ![2, 3, 1, 4] ![1, 2, 1, 3] exTuckV F := by
  obtain ⟨k, hl, hk⟩ := exists_svdLeading
  obtain ⟨C, F, h1, -, -, -, h2⟩ := C69_hosvd (by norm_num) (by norm_num) exTuckShaped.lensV exTuckRank hk hl
  exact ⟨k, C, F, hk, hl, h1, h2⟩

/-- The example tensor is a sum of coordinates plus one, so it has ranks 2, 2, 1, 2 although its lengths are 2, 3, 1, 4. -/
example : ∃ (k : Kern ℝ) (C : Tensor ℝ) (F : List (Tensor ℝ)), SvdShape k ∧ SvdLeading k ∧
    hosvd k exTuckV [2, 2, 1, 2] = .ok (C, F) ∧ ∀ idx : Fin 4 → ℕ, (∀ j, idx j < (![2, 3, 1, 4] : Fin 4 → ℕ) j) →
      Spec.tuckRecon ![2, 2, 1, 2] (arr C 4) (mats F) idx = arr exTuckV 4 idx := by
  obtain ⟨k, hl, hk⟩ := exists_svdLeading
  obtain ⟨C, F, h1, h2⟩ := C69_hosvd_exact (N := 4) (dims := ![2, 3, 1, 4]) (rk := ![2, 2, 1, 2]) (by norm_num) (by norm_num)
    exTuckShaped.lensV (by decide) hk hl
    (G := fun z => if z = ![0, 0, 0, 0] then 1 else if z = ![1, 0, 0, 0] then 1 else if z = ![0, 1, 0, 0] then 1
      else if z = ![0, 0, 0, 1] then 1 else 0)
    (B := fun _ x a => if a = 0 then 1 else x) (by
      intro idx hidx
      have h2 : idx 2 = 0 := by have := hidx 2; simpa using this
      have hbox : Spec.Box (![2, 2, 1, 2] : Fin 4 → ℕ) = {![0, 0, 0, 0], ![1, 0, 0, 0], ![0, 1, 0, 0], ![0, 0, 0, 1],
          ![1, 1, 0, 0], ![1, 0, 0, 1], ![0, 1, 0, 1], ![1, 1, 0, 1]} := by decide
      unfold Spec.tuckRecon
      rw [hbox]
      simp [Fin.prod_univ_four, arr, exTuckV, List.ofFn_succ, h2]
      ring)
  exact ⟨k, C, F, hk, hl, h1, h2⟩

end Properties
