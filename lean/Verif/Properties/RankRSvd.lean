import Verif.Proofs.RankRSvd
import Verif.Properties.LowRankBest
import Verif.Properties.Common

/-! # C14: `get_rankR_update_svd`, the variant that decomposes `γ` by a singular value decomposition -/

namespace Properties

open Model Finset Matrix EckartYoung

variable {k : Kern ℝ} {X0 : Tensor ℝ} {n R q : ℕ} {M A gamma : Tensor ℝ}

/-- **C14 (optimal, SVD variant).** For every positive definite `γ`, `get_rankR_update_svd` without randomisation returns
`U`, `s`, `VT` such that `A + U s VT` minimises the mode objective among all modifications `A + P Q` of rank at most `q`. -/
theorem C14_rankR_svd_variant_optimal (hk : LRKernOk k)
    (hM : M.lens = [n, R]) (hA : A.lens = [n, R]) (hg : gamma.lens = [R, R]) (hp : Spec.PosDef R (mat gamma))
    (hq : q ≤ min n R) :
    ∃ u', rankRUpdateSvd k sqrtinv X0 q M A gamma false = .ok u' ∧ LRShape u' n q R ∧
      ∀ (P : Matrix (Fin n) (Fin q) ℝ) (Q : Matrix (Fin q) (Fin R) ℝ),
        quadObj (toM R R gamma) (toM n R M) (toM n R A + usv n q R u') ≤
          quadObj (toM R R gamma) (toM n R M) (toM n R A + P * Q) := by
  obtain ⟨L, X, u, u', h1, hL, h2, h3, h4, h5, h6, h7⟩ := rankRUpdateSvd_ok (X0 := X0) (q := q) hk hM hA hg hp false
    (fun X hX => ⟨k.svd X q, by simp, (hk.trunc n R q X hX hq).shape⟩)
  refine ⟨u', h5, h6, fun P Q => ?_⟩
  rw [quadObj_square hL h2, quadObj_square hL h2, h7]
  have hu : k.svd X q = u := by simpa using h3
  have := (hk.trunc n R q X h1 hq).best P (Q * L)
  rw [hu] at this
  unfold fsq at this
  rw [Matrix.mul_assoc P Q]
  linarith

/-- **C14 (exact, SVD variant).** With a full decomposition (`q = min n R`) the updated factor solves the normal
equations: `(A + U s VT) γ = M`. -/
theorem C14_rankR_svd_variant_exact (hk : LRKernOk k)
    (hM : M.lens = [n, R]) (hA : A.lens = [n, R]) (hg : gamma.lens = [R, R]) (hp : Spec.PosDef R (mat gamma)) :
    ∃ u', rankRUpdateSvd k sqrtinv X0 (min n R) M A gamma false = .ok u' ∧ LRShape u' n (min n R) R ∧
      (toM n R A + usv n (min n R) R u') * toM R R gamma = toM n R M := by
  obtain ⟨L, X, u, u', h1, hL, h2, h3, h4, h5, h6, h7⟩ := rankRUpdateSvd_ok (X0 := X0) (q := min n R) hk hM hA hg hp false
    (fun X hX => ⟨k.svd X (min n R), by simp, (hk.trunc n R _ X hX le_rfl).shape⟩)
  refine ⟨u', h5, h6, ?_⟩
  have hu : k.svd X (min n R) = u := by simpa using h3
  have hex := (hk.trunc n R _ X h1 le_rfl).exact le_rfl
  rw [hu] at hex
  rw [Matrix.add_mul, ← hL, ← Matrix.mul_assoc (usv n (min n R) R u'), h7, hex, h2, hL]
  abel

/-- **C14 (both variants agree).** `get_rankR_update_svd` and `get_rankR_update_cholesky` reach the same value of the mode
objective. -/
theorem C14_rankR_variants_agree (hk : LRKernOk k)
    (hM : M.lens = [n, R]) (hA : A.lens = [n, R]) (hg : gamma.lens = [R, R]) (hp : Spec.PosDef R (mat gamma))
    (hq : q ≤ min n R) :
    ∃ u v, rankRUpdateSvd k sqrtinv X0 q M A gamma false = .ok u ∧ rankRUpdate k X0 q M A gamma false = .ok v ∧
      quadObj (toM R R gamma) (toM n R M) (toM n R A + usv n q R u) =
        quadObj (toM R R gamma) (toM n R M) (toM n R A + usv n q R v) := by
  obtain ⟨u, h1, _, h2⟩ := C14_rankR_svd_variant_optimal (X0 := X0) hk hM hA hg hp hq
  obtain ⟨v, g1, _, g2⟩ := C14_rankR_optimal_svd (X0 := X0) hk hM hA hg hp hq
  refine ⟨u, v, h1, g1, le_antisymm ?_ ?_⟩
  · exact h2 (toM n q v.U * diagonal (toV q v.s)) (toM q R v.VT)
  · exact g2 (toM n q u.U * diagonal (toV q u.s)) (toM q R u.VT)

/-- **C14 (randomised branch, SVD variant).** The randomised update never increases the mode objective. -/
theorem C14_rankR_svd_variant_random_descends (hk : LRKernOk k)
    (hM : M.lens = [n, R]) (hA : A.lens = [n, R]) (hg : gamma.lens = [R, R]) (hp : Spec.PosDef R (mat gamma))
    (hX0 : X0.lens = [R, q]) (hn : q ≤ n) (hR : q ≤ R) :
    ∃ u', rankRUpdateSvd k sqrtinv X0 q M A gamma true = .ok u' ∧ LRShape u' n q R ∧
      quadObj (toM R R gamma) (toM n R M) (toM n R A + usv n q R u') ≤
        quadObj (toM R R gamma) (toM n R M) (toM n R A) := by
  have hqr : ∀ X : Tensor ℝ, X.lens = [R, q] → QrSpec R q (k.qr X) := fun X hX => hk.qr R q X hX hR
  have hsvd : ∀ B : Tensor ℝ, B.lens = [n, q] → LRShape (k.svd B q) n q q ∧ usv n q q (k.svd B q) = toM n q B := by
    intro B hB
    have h := hk.trunc n q q B hB (by omega)
    exact ⟨h.shape, h.exact (by omega)⟩
  have hdec : ∀ X : Tensor ℝ, X.lens = [n, R] → ∃ u,
      (if true = true then randomizedSvd k X0 X q 1 else Except.ok (k.svd X q)) = .ok u ∧ LRShape u n q R := by
    intro X hX
    obtain ⟨u, Q, a1, a2, _, _⟩ := randomizedSvd_ok hX hX0 hqr hsvd 1
    exact ⟨u, by simpa using a1, a2⟩
  obtain ⟨L, X, u, u', h1, hL, h2, h3, h4, h5, h6, h7⟩ := rankRUpdateSvd_ok (X0 := X0) hk hM hA hg hp true hdec
  obtain ⟨v, Q, a1, a2, a3, a4⟩ := randomizedSvd_ok h1 hX0 hqr hsvd 1
  simp only [if_true] at h3
  rw [a1] at h3
  cases h3
  refine ⟨u', h5, h6, ?_⟩
  rw [quadObj_square hL h2, h7, a4]
  have hpy := fsq_pyth a3.2 (toM n R X)ᵀ
  have e : fsq ((toM n R X)ᵀ - toM R q Q * ((toM R q Q)ᵀ * (toM n R X)ᵀ)) =
      fsq (toM n R X - toM n R X * (toM R q Q * (toM R q Q)ᵀ)) := by
    rw [← fsq_transpose]
    congr 1
    simp only [transpose_sub, transpose_mul, transpose_transpose, Matrix.mul_assoc]
  rw [e, fsq_transpose] at hpy
  have h0 := fsq_nonneg ((toM R q Q)ᵀ * (toM n R X)ᵀ)
  unfold fsq at hpy h0
  linarith

/-- The hypotheses are met: `γ = [[2,1],[1,2]]`, a `3 × 2` right-hand side, a rank-1 update. -/
example : ∃ k : Kern ℝ, LRKernOk k ∧ ∃ u v,
    rankRUpdateSvd k sqrtinv ⟨[2, 1], fun _ => 1⟩ 1 ⟨[3, 2], fun _ => 1⟩ ⟨[3, 2], fun _ => 0⟩
      ⟨[2, 2], fun idx => if idx = [0, 0] ∨ idx = [1, 1] then 2 else 1⟩ false = .ok u ∧
    rankRUpdateSvd k sqrtinv ⟨[2, 1], fun _ => 1⟩ 1 ⟨[3, 2], fun _ => 1⟩ ⟨[3, 2], fun _ => 0⟩
      ⟨[2, 2], fun idx => if idx = [0, 0] ∨ idx = [1, 1] then 2 else 1⟩ true = .ok v := by
  obtain ⟨k, hk⟩ := exists_lrKernOk
  obtain ⟨u, h, _⟩ := C14_rankR_svd_variant_optimal (X0 := ⟨[2, 1], fun _ => 1⟩) (M := ⟨[3, 2], fun _ => 1⟩)
    (A := ⟨[3, 2], fun _ => 0⟩) (q := 1) hk rfl rfl rfl exGamma_posDef (by norm_num)
  obtain ⟨v, g, _⟩ := C14_rankR_svd_variant_random_descends (X0 := ⟨[2, 1], fun _ => 1⟩) (M := ⟨[3, 2], fun _ => 1⟩)
    (A := ⟨[3, 2], fun _ => 0⟩) (q := 1) hk rfl rfl rfl exGamma_posDef rfl (by norm_num) (by norm_num)
  exact ⟨k, hk, u, v, h, g⟩

end Properties
