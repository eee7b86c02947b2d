import Verif.Properties.Witness1
import Verif.Properties.Witness4

/-! Non-vacuity, continued (5): the rank-R update with kernels that meet their contracts, `Gauss_Seidel`. -/

namespace Properties
open Model Finset Matrix

def exStart : Tensor ℝ := ⟨[3, 2], fun _ => 0⟩

/-- `C14_rankR_residual`, `C14_rankR_optimal` and `C14_rankR_random`. -/
example : ∃ k : Kern ℝ, LRKernOk k ∧
    (∃ X u u', toM 3 2 X * (toM 2 2 (k.chol exGamma))ᵀ = toM 3 2 exRhs - toM 3 2 exStart * toM 2 2 exGamma ∧
      rankRUpdate k ⟨[2, 1], fun _ => 1⟩ 1 exRhs exStart exGamma false = .ok u' ∧
      toM 3 2 exRhs - (toM 3 2 exStart + usv 3 1 2 u') * toM 2 2 exGamma =
        (toM 3 2 X - usv 3 1 2 u) * (toM 2 2 (k.chol exGamma))ᵀ) ∧
    (∃ u', rankRUpdate k ⟨[2, 1], fun _ => 1⟩ 1 exRhs exStart exGamma false = .ok u' ∧
      ∀ (P : Matrix (Fin 3) (Fin 1) ℝ) (Q : Matrix (Fin 1) (Fin 2) ℝ),
        quadObj (toM 2 2 exGamma) (toM 3 2 exRhs) (toM 3 2 exStart + usv 3 1 2 u') ≤
          quadObj (toM 2 2 exGamma) (toM 3 2 exRhs) (toM 3 2 exStart + P * Q)) ∧
    ∃ (u' : LR ℝ) (Q : Tensor ℝ), rankRUpdate k ⟨[2, 1], fun _ => 1⟩ 1 exRhs exStart exGamma true = .ok u' ∧ QrSpec 2 1 Q := by
  obtain ⟨k, hk⟩ := exists_lrKernOk
  have hL := hk.base.chol 2 exGamma rfl exGamma_pd
  obtain ⟨X, u, u1, a1, _, a2, _, a3, _⟩ := C14_rankR_residual (q := 1) (X0 := ⟨[2, 1], fun _ => 1⟩) (M := exRhs)
    (A := exStart) (gamma := exGamma) hk.base.tri rfl rfl rfl hL false
    fun X hX => ⟨k.svd X 1, rfl, (hk.trunc 3 2 1 X hX (by norm_num)).shape⟩
  obtain ⟨u2, b1, _, b2⟩ := C14_rankR_optimal (q := 1) (X0 := ⟨[2, 1], fun _ => 1⟩) (M := exRhs)
    (A := exStart) (gamma := exGamma) hk.base.tri rfl rfl rfl hL
    fun X hX => ⟨(hk.trunc 3 2 1 X hX (by norm_num)).shape, fun P Q => (hk.trunc 3 2 1 X hX (by norm_num)).best P Q⟩
  obtain ⟨u3, Q, c1, _, c2, _⟩ := C14_rankR_random (q := 1) (X0 := ⟨[2, 1], fun _ => 1⟩) (M := exRhs)
    (A := exStart) (gamma := exGamma) hk.base.tri rfl rfl rfl hL rfl
    (fun X hX => hk.qr 2 1 X hX (by norm_num))
    fun B hB => ⟨(hk.trunc 3 1 1 B hB (by norm_num)).shape, (hk.trunc 3 1 1 B hB (by norm_num)).exact (by norm_num)⟩
  exact ⟨k, hk, ⟨X, u, u1, a1, a2, a3⟩, ⟨u2, b1, b2⟩, u3, Q, c1, c2⟩

/-- `C62_sweeps`, `C62_descends` and `C62_converges`. -/
example : ∃ k : Kern ℝ, SvdTruncates k ∧
    (∃ T : ℕ → Tensor ℝ, T 0 = exStart ∧ ∀ t, gaussSeidel k exStart exRhs exGamma t = .ok (T t) ∧
      ∀ x < 3, ∀ j < 2, ∑ l ∈ range 2, (if l ≤ j then mat (T (t + 1)) x l else mat (T t) x l) * mat exGamma l j =
        mat exRhs x j) ∧
    (∃ T : ℕ → Tensor ℝ, ∀ t, gaussSeidel k exStart exRhs exGamma t = .ok (T t) ∧
      (Spec.quad 3 2 (mat exGamma) (mat exRhs) (mat (T (t + 1))) < Spec.quad 3 2 (mat exGamma) (mat exRhs) (mat (T t)) ∨
        Spec.Solves 3 2 (mat (T t)) (mat exGamma) (mat exRhs) ∧ ∀ x < 3, ∀ r < 2, mat (T (t + 1)) x r = mat (T t) x r)) ∧
    ∃ (T : ℕ → Tensor ℝ) (X : ℕ → ℕ → ℝ), (∀ t, gaussSeidel k exStart exRhs exGamma t = .ok (T t)) ∧
      (∀ x < 3, ∀ r < 2, ∑ j ∈ range 2, X x j * mat exGamma j r = mat exRhs x r) ∧
      ∀ x < 3, ∀ r < 2, ∀ ε > 0, ∃ t0, ∀ t ≥ t0, |mat (T t) x r - X x r| < ε := by
  obtain ⟨k, hk⟩ := exists_lrKernOk
  have hs : ∀ S : Tensor ℝ, S.lens = [2, 2] → SvdSpec 2 (k.svd S 2) S := fun S hS =>
    (hk.trunc 2 2 2 S hS (by simp)).svdSpec
  obtain ⟨T1, a1, a2⟩ := C62_sweeps (n := 3) (A := exStart) (F := exRhs) (G := exGamma) rfl rfl rfl exGamma_pd.1
    (fun a ha => (posDef_diag exGamma_pd ha).ne') hs
  obtain ⟨T2, b1, b2⟩ := C62_descends (n := 3) (A := exStart) (F := exRhs) (G := exGamma) rfl rfl rfl exGamma_pd hs
  obtain ⟨T3, X, c1, c2, c3⟩ := C62_converges (n := 3) (A := exStart) (F := exRhs) (G := exGamma) rfl rfl rfl
    exGamma_pd hk.trunc
  exact ⟨k, hk.trunc, ⟨T1, a1, fun t => ⟨(a2 t).1, (a2 t).2.2⟩⟩, ⟨T2, b2⟩, T3, X, fun t => (c1 t).1, c2, c3⟩

end Properties
